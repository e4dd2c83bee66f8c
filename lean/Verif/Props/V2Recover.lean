import Verif.Model.V2Recover
import Verif.Props.V2Isolation

/-!
# What a recovered panic leaves of a v2 authorizer (C119)
-/

namespace Verif
namespace RQ
open V2 Spec
variable {α β σ τ : Type} {w w' v : V2}

/-! ## Computations -/

@[simp] theorem ret_apply (a : α) : ret a w = (.ok a, w) := rfl
@[simp] theorem fail_apply : (fail : Rec α) w = (.panic, w) := rfl
@[simp] theorem ret_bind (a : α) (f : α → Rec β) : (ret a).bind f = f a := rfl
@[simp] theorem fail_bind (f : α → Rec β) : (fail : Rec α).bind f = fail := rfl
@[simp] theorem deref_some (a : α) : deref (some a) = ret a := rfl
@[simp] theorem deref_none : (deref (none : Option α)) = fail := rfl
@[simp] theorem read_bind (f : V2 → α) (k : α → Rec β) : ((read f).bind k) w = k (f w) w := rfl
@[simp] theorem write_apply (f : V2 → V2) : write f w = (.ok (), f w) := rfl
@[simp] theorem write_bind (f : V2 → V2) (k : Unit → Rec β) : ((write f).bind k) w = k () (f w) := rfl
@[simp] theorem look_apply (f : V2 → Out α) : look f w = (f w, w) := rfl
theorem look_bind (f : V2 → Out α) (k : α → Rec β) : ((look f).bind k) w =
    match f w with | .ok a => k a w | .panic => (.panic, w) | .diverge => (.diverge, w) := rfl

theorem tenantAt_bind {c : Nat} {k : T2 → Rec β} : ((tenantAt c).bind k) w =
    match w.tobjs[c]? with | some t => k t w | none => (.panic, w) := by
  rw [tenantAt, look_bind]; cases w.tobjs[c]? <;> rfl
theorem roleAt_bind {a : Nat} {k : R2 → Rec β} : ((roleAt a).bind k) w =
    match w.dag.objs[a]? with | some r => k r w | none => (.panic, w) := by
  rw [roleAt, look_bind]; cases w.dag.objs[a]? <;> rfl
theorem rowAt_bind {x : Option Nat} {k : PR → Rec β} : ((rowAt x).bind k) w =
    match w.prAt x with | .ok u => k u w | .panic => (.panic, w) | .diverge => (.diverge, w) := by
  rw [rowAt, look_bind]; cases w.prAt x <;> rfl

theorem Rec.bind_ok {x : Rec α} {f : α → Rec β} {a : α} (h : (x w).1 = .ok a) : (x.bind f) w = f a (x w).2 := by
  simp only [Rec.bind, h]

/-- The property is kept, however the computation ends. -/
def Keeps (P : V2 → Prop) (x : Rec α) : Prop := ∀ w, P w → P (x w).2

section keeps
variable {P : V2 → Prop}

theorem Keeps.ret (a : α) : Keeps P (ret a) := fun _ h => h
theorem Keeps.fail : Keeps P (fail : Rec α) := fun _ h => h
theorem Keeps.look (f : V2 → Out α) : Keeps P (look f) := fun _ h => h
theorem Keeps.read (f : V2 → α) : Keeps P (read f) := fun _ h => h
theorem Keeps.deref (p : Option α) : Keeps P (deref p) := by cases p <;> exact fun _ h => h
theorem Keeps.write {f : V2 → V2} (h : ∀ w, P w → P (f w)) : Keeps P (write f) := h

theorem Keeps.bind {x : Rec α} {f : α → Rec β} (h : Keeps P x) (hf : ∀ a, Keeps P (f a)) : Keeps P (x.bind f) := by
  intro w hw
  unfold Rec.bind
  cases e : (x w).1 with
  | ok a => exact hf a _ (h w hw)
  | panic => exact h w hw
  | diverge => exact h w hw

theorem Keeps.ite {c : Prop} [Decidable c] {x y : Rec α} (h1 : Keeps P x) (h2 : Keeps P y) : Keeps P (if c then x else y) := by
  split <;> assumption

theorem Keeps.each {f : α → Rec Unit} (h : ∀ x, Keeps P (f x)) (l : List α) : Keeps P (each f l) := by
  induction l with
  | nil => exact .ret ()
  | cons x l ih => exact (h x).bind fun _ => ih

theorem Keeps.over {f : σ → α → Rec σ} (h : ∀ s x, Keeps P (f s x)) (l : List α) (s : σ) : Keeps P (over f s l) := by
  induction l generalizing s with
  | nil => exact .ret s
  | cons x l ih => exact (h s x).bind fun s' => ih s'

theorem Keeps.drop {x : Rec α} (h : Keeps P x) : Keeps P x.drop := h.bind fun _ => .ret ()

theorem Keeps.traverse {e : Env} {site : List Val} {p : Str} {visit : Str → σ → Rec σ} (hv : ∀ tid s, Keeps P (visit tid s)) (n c : Nat)
    (st : List Str × σ) : Keeps P (RQ.traverse e site p visit n c st) := by
  induction n generalizing c st with
  | zero => exact fun _ h => h
  | succ n ih =>
    refine (Keeps.look _).bind fun t => Keeps.ite (.ret _) ((hv _ _).bind fun s => (Keeps.read _).bind fun rows => ?_)
    exact Keeps.over (fun st xi => (Keeps.look _).bind fun u => Keeps.ite (Keeps.over (fun st kd => ih _ _) _ _) (.ret _)) _ _

theorem Keeps.tenantLoop {r : Req2} {body : Nat → Str → Str → Rec Bool} (hl : ∀ m, Keeps P (RQ.logMsg r m)) (hb : ∀ k tid ns, Keeps P (body k tid ns))
    (k : Nat) (cs : List Nat) : Keeps P (RQ.tenantLoop r body k cs) := by
  induction cs generalizing k with
  | nil => exact (hl _).bind fun _ => .ret _
  | cons c cs ih =>
    refine (Keeps.look _).bind fun t => ?_
    split
    · exact ih _
    · split
      · exact ih _
      · exact Keeps.ite (ih _) ((hb _ _ _).bind fun b => Keeps.ite (.ret _) (ih _))

theorem Keeps.decideAll {r : Req2} {body : Nat → Str → Str → Rec Bool} (hl : ∀ m, Keeps P (RQ.logMsg r m)) (hb : ∀ k tid ns, Keeps P (body k tid ns))
    (o : Ord) (site : List Val) : Keeps P (RQ.decideAll r body o site) := by
  refine (Keeps.look _).bind fun ts => ?_
  split
  · exact (hl _).bind fun _ => .ret _
  · exact Keeps.tenantLoop hl hb _ _

theorem Keeps.authorize {r : Req2} (hl : ∀ m, Keeps P (RQ.logMsg r m)) (hr : ∀ fuel role, Keeps P (RQ.resolve Dag.resolvePermissions fuel role))
    (e : Env) (fuel : Nat) (site : List Val) : Keeps P (RQ.authorize e fuel site r) := by
  refine Keeps.decideAll hl (fun k tid ns => ?_) _ _
  refine Keeps.bind ?_ fun x => ?_
  · refine (Keeps.read _).bind fun x => ?_
    split
    · exact .ret _
    · refine (Keeps.traverse (fun tid s => (Keeps.read _).bind fun rows => Keeps.over (fun s xi => ?_) _ _) _ _ _).bind fun _ => .ret _
      refine (Keeps.look _).bind fun u => Keeps.ite (.ret _) (Keeps.ite (.ret _) (Keeps.ite ((hr _ _).bind fun ps => ?_) (.ret _)))
      exact Keeps.ite (.ret _) (Keeps.ite (.ret _) (.ret _))
  · split
    · exact (hl _).bind fun _ => .ret _
    · exact (Keeps.look _).bind fun b => Keeps.ite ((hl _).bind fun _ => .ret _) (.ret _)

theorem Keeps.can {r : Req2} (hl : ∀ m, Keeps P (RQ.logMsg r m)) (hr : ∀ fuel role, Keeps P (RQ.resolve Dag.resolveChildRoles fuel role))
    (e : Env) (fuel : Nat) (site : List Val) (roles : List Str) : Keeps P (RQ.can e fuel site r roles) := by
  refine Keeps.decideAll hl (fun k tid ns => ?_) _ _
  refine Keeps.bind ?_ fun x => ?_
  · refine (Keeps.read _).bind fun x => ?_
    split
    · exact .ret _
    · refine (Keeps.traverse (fun tid s => (Keeps.read _).bind fun rows => Keeps.over (fun s xi => ?_) _ _) _ _ _).bind fun _ => .ret _
      exact (Keeps.look _).bind fun u => Keeps.ite (.ret _) (Keeps.ite (.ret _) (Keeps.ite ((hr _ _).bind fun ps => .ret _) (.ret _)))
  · split
    · exact (hl _).bind fun _ => .ret _
    · exact Keeps.ite ((hl _).bind fun _ => .ret _) (.ret _)

end keeps

theorem resolve_run {emit : R2 → List Str} {u : V2} (fuel : Nat) (role : Str) : Keeps (V2.Run emit u) (resolve (fun d => d.resolve emit) fuel role) := by
  intro w h
  unfold resolve
  dsimp only
  cases hr : w.dag.resolve emit fuel role with
  | ok x => exact ⟨h.frame.trans (.dag w x.2), (h.dag.step hr).1⟩
  | panic => exact h
  | diverge => exact h

/-- A decision leaves what a decision that runs to its end leaves: only sets kept of roles and records are new. -/
theorem authorize_run (inv : Inv w) {e : Env} {fuel : Nat} {site : List Val} {r : Req2} : V2.Run (·.perms) w (authorize e fuel site r w).2 :=
  Keeps.authorize (P := V2.Run (·.perms) w) (fun m => .write fun _ h => h.logMsg r m) (fun f ro => resolve_run f ro) e fuel site w (.refl inv _)

theorem can_run (inv : Inv w) {e : Env} {fuel : Nat} {site : List Val} {r : Req2} {roles : List Str} :
    V2.Run (fun o => [o.name]) w (can e fuel site r roles w).2 :=
  Keeps.can (P := V2.Run (fun o => [o.name]) w) (fun m => .write fun _ h => h.logMsg r m) (fun f ro => resolve_run f ro) e fuel site roles w (.refl inv _)

/-! ## Ending as described -/

/-- The computation ends as described by `s`; what it leaves when it panics is not described by `s`. -/
def Agrees (r : Out α × V2) (s : Out (α × V2)) : Prop :=
  match s with
  | .ok x => r = (.ok x.1, x.2)
  | .panic => r.1 = .panic
  | .diverge => r.1 = .diverge

theorem Agrees.ok {r : Out α × V2} {s : Out (α × V2)} (h : Agrees r s) {a : α} (e : r.1 = .ok a) : s = .ok (a, r.2) := by
  unfold Agrees at h
  cases s with
  | ok x => rw [h] at e ⊢; cases e; rfl
  | panic => rw [h] at e; cases e
  | diverge => rw [h] at e; cases e

/-- Computations one after another; `view` shows what the description keeps as an answer and a state. -/
theorem Agrees.bind {x : Rec α} {s : Out σ} {view : σ → α × V2} (h : Agrees (x w) (s.map view)) {f : α → Rec β} {g : σ → Out (β × V2)}
    (hf : ∀ t, s = .ok t → Agrees (f (view t).1 (view t).2) (g t)) : Agrees (x.bind f w) (s.bind g) := by
  unfold Rec.bind
  cases s with
  | ok y => rw [show x w = _ from h]; exact hf y rfl
  | panic => rw [show (x w).1 = _ from h]; rfl
  | diverge => rw [show (x w).1 = _ from h]; rfl

theorem Agrees.look {f : V2 → Out α} {k : α → Rec β} {g : α → Out (β × V2)} (h : ∀ a, f w = .ok a → Agrees (k a w) (g a)) :
    Agrees ((RQ.look f).bind k w) ((f w).bind g) := by
  rw [look_bind]
  cases hf : f w with
  | ok a => exact h a hf
  | panic => rfl
  | diverge => rfl

theorem map_bind {x : Out α} {f : α → Out β} {g : β → σ} : (x.bind f).map g = x.bind fun a => (f a).map g := by cases x <;> rfl

theorem map_map {x : Out α} {f : α → β} {g : β → σ} : (x.map f).map g = x.bind fun a => .ok (g (f a)) := by cases x <;> rfl
theorem map_id {x : Out α} : x.map id = x := by cases x <;> rfl
theorem map_eq_bind {x : Out α} {f : α → β} : x.map f = x.bind fun a => .ok (f a) := by cases x <;> rfl

theorem Agrees.drop {x : Rec α} {s : Out (α × V2)} (h : Agrees (x w) s) : Agrees (x.drop w) (s.map fun y => ((), y.2)) := by
  unfold Rec.drop Rec.bind
  cases s with
  | ok y => rw [show x w = _ from h]; rfl
  | panic => rw [show (x w).1 = _ from h]; rfl
  | diverge => rw [show (x w).1 = _ from h]; rfl

theorem Agrees.each {f : α → Rec Unit} {g : V2 → β → Out V2} {h : β → α} {l : List β} (hf : ∀ x ∈ l, ∀ w, Agrees (f (h x) w) ((g w x).map fun w => ((), w))) :
    Agrees (RQ.each f (l.map h) w) ((Out.loop g w l).map fun w => ((), w)) := by
  induction l generalizing w with
  | nil => exact rfl
  | cons x l ih =>
    rw [List.map_cons, RQ.each, Out.loop, map_bind]
    exact Agrees.bind (hf x (List.mem_cons_self ..) w) fun t _ => ih fun y hy => hf y (List.mem_cons_of_mem _ hy)

/-- Loops whose states are shown by `view`. -/
theorem Agrees.over {f : τ → α → Rec τ} {g : σ → α → Out σ} {view : σ → τ × V2} {l : List α}
    (hf : ∀ x ∈ l, ∀ s, Agrees (f (view s).1 x (view s).2) ((g s x).map view)) (s : σ) :
    Agrees (RQ.over f (view s).1 l (view s).2) ((Out.loop g s l).map view) := by
  induction l generalizing s with
  | nil => exact rfl
  | cons x l ih =>
    rw [RQ.over, Out.loop, map_bind]
    exact Agrees.bind (hf x (List.mem_cons_self ..) s) fun t _ => ih (fun y hy => hf y (List.mem_cons_of_mem _ hy)) t

/-- The visited tenants beside the state of the first loop. -/
def beside (view : σ → τ × V2) (st : List Str × σ) : (List Str × τ) × V2 := ((st.1, (view st.2).1), (view st.2).2)

theorem traverse_agrees {e : Env} {site : List Val} {p : Str} {view : σ → τ × V2} (hview : ∀ s, ∃ d, (view s).2 = { w with dag := d })
    {visit : Str → τ → Rec τ} {visit' : Str → σ → Out σ} (hv : ∀ tid s, Agrees (visit tid (view s).1 (view s).2) ((visit' tid s).map view))
    (n c : Nat) (st : List Str × σ) :
    Agrees (traverse e site p visit n c (beside view st).1 (beside view st).2) ((w.traverse e site p visit' n c st).map (beside view)) := by
  induction n generalizing c st with
  | zero => exact rfl
  | succ n ih =>
    rw [traverse, V2.traverse, V2.withT, tenantAt_bind]
    have h1 : (beside view st).2.tobjs = w.tobjs := by obtain ⟨d, hd⟩ := hview st.2; rw [beside, hd]
    rw [h1]
    cases w.tobjs[c]? with
    | none => exact rfl
    | some t =>
      dsimp only
      have h2 : (beside view st).1.1 = st.1 := rfl
      rw [h2]
      by_cases hin : t.id ∈ st.1
      · rw [if_pos hin, if_pos hin]; exact rfl
      · rw [if_neg hin, if_neg hin, map_bind]
        refine Agrees.bind (hv t.id st.2) fun s _ => ?_
        rw [read_bind]
        have h3 : (view s).2.userRoles = w.userRoles := by obtain ⟨d, hd⟩ := hview s; rw [hd]
        rw [h3]
        refine Agrees.over (view := beside view) (fun xi _ st => ?_) (st.1 ++ [t.id], s)
        rw [rowAt_bind]
        have h4 : (beside view st).2.prAt xi.1 = w.prAt xi.1 := by obtain ⟨d, hd⟩ := hview st.2; rw [beside, hd]; rfl
        rw [h4]
        cases w.prAt xi.1 with
        | panic => exact rfl
        | diverge => exact rfl
        | ok u =>
          dsimp only [Out.bind]
          by_cases hc : u.principal = p ∧ u.tenant = t.id ∧ u.manage = true
          · rw [if_pos hc, if_pos hc]
            exact Agrees.over (view := beside view) (fun kd _ st => ih kd.2 st) st
          · rw [if_neg hc, if_neg hc]; exact rfl

theorem resolve_agrees {f : Dag → Nat → Str → Out (List Str × Dag)} {fuel : Nat} {role : Str} :
    Agrees (resolve f fuel role w) ((f w.dag fuel role).map fun x => (x.1, { w with dag := x.2 })) := by
  unfold resolve
  cases f w.dag fuel role <;> exact rfl

def viewP (w : V2) (s : PAcc) : (List Str × List Str) × V2 := ((s.scopedP, s.globalP), { w with dag := s.dag })
def viewR (w : V2) (s : RAcc) : List Str × V2 := (s.roles, { w with dag := s.dag })

theorem permRow_agrees {e : Env} {fuel : Nat} {site : List Val} {p ns sc tid : Str} {xi : Option Nat × Nat} {s : PAcc} :
    Agrees (permRow e fuel site p ns sc tid (viewP w s).1 xi (viewP w s).2) ((w.permRow e fuel site p ns sc tid s xi).map (viewP w)) := by
  rw [permRow, V2.permRow, rowAt_bind]
  have h4 : (viewP w s).2.prAt xi.1 = w.prAt xi.1 := rfl
  rw [h4]
  cases w.prAt xi.1 with
  | panic => exact rfl
  | diverge => exact rfl
  | ok u =>
    dsimp only [Out.bind]
    by_cases h1 : u.principal ≠ p ∨ u.tenant ≠ tid
    · rw [if_pos h1, if_pos h1]; exact rfl
    rw [if_neg h1, if_neg h1]
    by_cases h2 : u.expired (e.now (site ++ [.str tid, .int xi.2])) = true
    · rw [if_pos h2, if_pos h2]; exact rfl
    rw [if_neg h2, if_neg h2]
    by_cases h3 : u.namespace_ = [] ∨ u.namespace_ = ns
    · rw [if_pos h3, if_pos h3]
      rw [map_map]
      refine Agrees.bind (view := fun x => (x.1, { w with dag := x.2 })) (resolve_agrees (w := (viewP w s).2)) fun x _ => ?_
      by_cases h4 : u.scope = sc
      · rw [if_pos h4, if_pos h4]; exact rfl
      rw [if_neg h4, if_neg h4]
      by_cases h5 : u.scope = []
      · rw [if_pos h5, if_pos h5]; exact rfl
      · rw [if_neg h5, if_neg h5]; exact rfl
    · rw [if_neg h3, if_neg h3]; exact rfl

theorem roleRow_agrees {e : Env} {fuel : Nat} {site : List Val} {p ns tid : Str} {xi : Option Nat × Nat} {s : RAcc} :
    Agrees (roleRow e fuel site p ns tid (viewR w s).1 xi (viewR w s).2) ((w.roleRow e fuel site p ns tid s xi).map (viewR w)) := by
  rw [roleRow, V2.roleRow, rowAt_bind]
  have h4 : (viewR w s).2.prAt xi.1 = w.prAt xi.1 := rfl
  rw [h4]
  cases w.prAt xi.1 with
  | panic => exact rfl
  | diverge => exact rfl
  | ok u =>
    dsimp only [Out.bind]
    by_cases h1 : u.principal ≠ p ∨ u.tenant ≠ tid
    · rw [if_pos h1, if_pos h1]; exact rfl
    rw [if_neg h1, if_neg h1]
    by_cases h2 : u.expired (e.now (site ++ [.str tid, .int xi.2])) = true
    · rw [if_pos h2, if_pos h2]; exact rfl
    rw [if_neg h2, if_neg h2]
    by_cases h3 : (u.namespace_ = [] ∨ u.namespace_ = ns) ∧ u.role ≠ []
    · rw [if_pos h3, if_pos h3, map_map]
      refine Agrees.bind (view := fun x => (x.1, { w with dag := x.2 })) (resolve_agrees (w := (viewR w s).2)) fun x _ => ?_
      exact rfl
    · rw [if_neg h3, if_neg h3]; exact rfl

theorem resolvePerms_agrees {e : Env} {fuel : Nat} {site : List Val} {p tid ns sc : Str} :
    Agrees (resolvePerms e fuel site p tid ns sc w) ((w.resolvePerms e fuel site p tid ns sc).map fun x => (x.1, { w with dag := x.2 })) := by
  rw [resolvePerms, V2.resolvePerms, read_bind]
  cases w.tenants.get tid with
  | none => exact rfl
  | some c =>
    dsimp only
    rw [map_map]
    refine Agrees.bind (view := beside (viewP w))
      (traverse_agrees (w := w) (view := viewP w) (fun s => ⟨s.dag, rfl⟩) (fun tid s => ?_) fuel c ([], { dag := w.dag })) fun t _ => rfl
    exact Agrees.over (view := viewP w) (fun xi _ s => permRow_agrees) s

theorem resolveRoles_agrees {e : Env} {fuel : Nat} {site : List Val} {p tid ns : Str} :
    Agrees (resolveRoles e fuel site p tid ns w) ((w.resolveRoles e fuel site p tid ns).map fun x => (x.1, { w with dag := x.2 })) := by
  rw [resolveRoles, V2.resolveRoles, read_bind]
  cases w.tenants.get tid with
  | none => exact rfl
  | some c =>
    dsimp only
    rw [map_map]
    refine Agrees.bind (view := beside (viewR w))
      (traverse_agrees (w := w) (view := viewR w) (fun s => ⟨s.dag, rfl⟩) (fun tid s => ?_) fuel c ([], { dag := w.dag })) fun t _ => rfl
    exact Agrees.over (view := viewR w) (fun xi _ s => roleRow_agrees) s

theorem tenantLoop_agrees {r : Req2} {body : Nat → Str → Str → Rec Bool} {body' : Nat → Str → Str → V2 → Out (Bool × V2)}
    (hb : ∀ k tid ns w, Agrees (body k tid ns w) (body' k tid ns w)) (k : Nat) (cs : List Nat) :
    Agrees (tenantLoop r body k cs w) (V2.tenantLoop r body' k cs w) := by
  induction cs generalizing k w with
  | nil => exact rfl
  | cons c cs ih =>
    rw [tenantLoop, V2.tenantLoop, V2.withT, tenantAt_bind]
    cases w.tobjs[c]? with
    | none => exact rfl
    | some t =>
      dsimp only
      cases nsOf t r with
      | none => exact ih _
      | some ns =>
        dsimp only
        cases t.namespaces.get ns with
        | none => exact ih _
        | some scs =>
          dsimp only
          by_cases h : r.scope ≠ [] ∧ (!scopeValid scs r.scope) = true
          · rw [if_pos h, if_pos h]; exact ih _
          · rw [if_neg h, if_neg h]
            refine Agrees.bind (view := id) (by rw [map_id]; exact hb k t.id ns w) fun x _ => ?_
            obtain ⟨b, w'⟩ := x
            cases b with
            | true => exact rfl
            | false => exact ih _

theorem authorize_agrees {e : Env} {fuel : Nat} {site : List Val} {r : Req2} :
    Agrees (authorize e fuel site r w) (w.authorize e fuel site r) := by
  refine Agrees.look fun ts _ => ?_
  cases ts with
  | none => exact rfl
  | some cs =>
    refine tenantLoop_agrees (fun k tid ns w => ?_) 0 cs
    refine Agrees.bind resolvePerms_agrees fun x _ => ?_
    obtain ⟨x, d⟩ := x
    cases x with
    | none => exact rfl
    | some perms =>
      dsimp only
      rw [map_eq_bind]
      refine Agrees.look (f := fun _ => Out.anyI (fun _ perm => V2.matchPermission perm r) 0 (e.o.ord (site ++ [.int k]) _ perms)) fun b _ => ?_
      cases b <;> exact rfl

theorem can_agrees {e : Env} {fuel : Nat} {site : List Val} {r : Req2} {roles : List Str} :
    Agrees (can e fuel site r roles w) (w.can e fuel site r roles) := by
  refine Agrees.look fun ts _ => ?_
  cases ts with
  | none => exact rfl
  | some cs =>
    refine tenantLoop_agrees (fun k tid ns w => ?_) 0 cs
    refine Agrees.bind resolveRoles_agrees fun x _ => ?_
    obtain ⟨x, d⟩ := x
    cases x with
    | none => exact rfl
    | some rs =>
      dsimp only
      cases ((e.o.ord (site ++ [.int k]) _ rs).any fun x => decide (x ∈ roles)) <;> exact rfl

/-! ## The single calls -/

theorem each_append {f : α → Rec Unit} (xs ys : List α) : each f (xs ++ ys) w = (each f xs).bind (fun _ => each f ys) w := by
  induction xs generalizing w with
  | nil => rfl
  | cons x xs ih =>
    rw [List.cons_append, each, each, Rec.bind, Rec.bind, Rec.bind]
    cases e : (f x w).1 with
    | ok a => dsimp only; rw [ih]; rfl
    | panic => rfl
    | diverge => rfl

/-- An iteration that panics leaves what the iterations before it left. -/
theorem each_stop {f : α → Rec Unit} {xs ys : List α} {x : α} (h : each f xs w = (.ok (), w')) (hx : f x w' = (.panic, v)) :
    each f (xs ++ x :: ys) w = (.panic, v) := by
  rw [each_append, Rec.bind, h]
  dsimp only
  rw [each, Rec.bind, hx]

theorem set_same {l : List α} {i : Nat} {a : α} (h : l[i]? = some a) : l.set i a = l := by
  obtain ⟨hi, rfl⟩ := List.getElem?_eq_some_iff.1 h
  exact List.set_getElem_self hi

theorem map_set_set {κ ν : Type} [DecidableEq κ] (l : GoMap κ ν) (k : κ) (v v' : ν) : (l.set k v).set k v' = l.set k v' := by
  induction l with
  | nil => simp [GoMap.set]
  | cons e l ih =>
    by_cases h : e.1 = k
    · simp [GoMap.set, h]
    · simp [GoMap.set, h, ih]

theorem map_set_get {κ ν : Type} [DecidableEq κ] {l : GoMap κ ν} {k : κ} {v : ν} (h : l.get k = some v) : l.set k v = l := by
  induction l with
  | nil => cases h
  | cons e l ih =>
    by_cases hk : e.1 = k
    · rw [GoMap.get, if_pos hk] at h; cases h; subst hk; simp [GoMap.set]
    · rw [GoMap.get, if_neg hk] at h; simp [GoMap.set, hk, ih h]

/-- One permission of `AddPermission` or `RemovePermission`. -/
def onePerm (g : List Str → Str → List Str) (a : Nat) (q : Option Perm2) : Rec Unit :=
  (deref q).bind fun x => (roleAt a).bind fun r => setPerms a r (g r.perms x.string)

/-- One scope of `AddScopeToNamespace`. -/
def oneScope (c : Nat) (n : Str) (q : Option Str) : Rec Unit :=
  (deref q).bind fun s => (tenantAt c).bind fun t =>
    setTenant c { t with namespaces := t.namespaces.set n (addStr ((t.namespaces.get n).getD []) s) }

/-- One child of `AddChildTenant`. -/
def oneChild (c : Nat) (q : Option Nat) : Rec Unit :=
  (deref q).bind fun d => (tenantAt d).bind fun dt => (tenantAt c).bind fun t => setTenant c { t with children := t.children.set dt.id d }

/-- One role of `AddRoles`. -/
def oneRole (p : Option Nat) : Rec Unit :=
  (deref p).bind fun a => (roleAt a).bind fun r => write fun w => { w with dag := { w.dag with roles := w.dag.roles.set r.name a } }

/-- One assignment of `AddPrincipalRole`. -/
def oneRow (p : Option Nat) : Rec Unit :=
  (write fun w => { w with userRoles := w.userRoles ++ [entry w p] }).bind fun _ => (rowAt p).bind fun u => (deref p).bind fun i =>
    write fun w =>
      let m := (w.index.get u.principal).getD []
      { w with index := w.index.set u.principal (m.set u.tenant ((m.get u.tenant).getD [] ++ [i])) }

theorem onePerm_eq {g : List Str → Str → List Str} {a : Nat} {r : R2} {x : Perm2} (h : w.dag.objs[a]? = some r) : onePerm g a (some x) w =
    (.ok (), { w with dag := { w.dag with objs := w.dag.objs.set a { r with perms := g r.perms x.string } } }) := by
  rw [onePerm, deref_some, ret_bind, roleAt_bind, h]; rfl

theorem onePerm_none {g : List Str → Str → List Str} {a : Nat} {x : Perm2} (h : w.dag.objs[a]? = none) : onePerm g a (some x) w = (.panic, w) := by
  rw [onePerm, deref_some, ret_bind, roleAt_bind, h]

theorem perms_each {g : List Str → Str → List Str} {a : Nat} {r : R2} {ps : List Perm2} (h : w.dag.objs[a]? = some r) :
    each (onePerm g a) (ps.map some) w =
      (.ok (), { w with dag := { w.dag with objs := w.dag.objs.set a { r with perms := (ps.map Perm2.string).foldl g r.perms } } }) := by
  induction ps generalizing w r with
  | nil => rw [List.map_nil, each, ret_apply, List.map_nil, List.foldl_nil, set_same h]
  | cons x ps ih =>
    rw [List.map_cons, each, Rec.bind, onePerm_eq h]
    dsimp only
    have hi : a < w.dag.objs.length := (List.getElem?_eq_some_iff.1 h).1
    rw [ih (List.getElem?_set_self hi)]
    simp only [List.set_set, List.map_cons, List.foldl_cons]

theorem oneScope_eq {c : Nat} {t : T2} {n x : Str} {s : List Str} (h : w.tobjs[c]? = some t) (hs : t.namespaces.get n = some s) :
    oneScope c n (some x) w = (.ok (), w.setT c { t with namespaces := t.namespaces.set n (addStr s x) }) := by
  rw [oneScope, deref_some, ret_bind, tenantAt_bind, h]
  dsimp only
  rw [hs]; rfl

theorem scopes_each {c : Nat} {t : T2} {n : Str} {s : List Str} {scs : List Str} (h : w.tobjs[c]? = some t) (hs : t.namespaces.get n = some s) :
    each (oneScope c n) (scs.map some) w = (.ok (), w.setT c { t with namespaces := t.namespaces.set n (scs.foldl addStr s) }) := by
  induction scs generalizing w t s with
  | nil => rw [List.map_nil, each, ret_apply, List.foldl_nil, map_set_get hs, V2.setT, set_same h]
  | cons x scs ih =>
    rw [List.map_cons, each, Rec.bind, oneScope_eq h hs]
    dsimp only
    have hi : c < w.tobjs.length := (List.getElem?_eq_some_iff.1 h).1
    rw [ih (List.getElem?_set_self hi) (s := addStr s x) (by simp)]
    simp only [V2.setT, List.set_set, List.foldl_cons, map_set_set]

theorem oneChild_agrees {c d : Nat} : Agrees (oneChild c (some d) w) ((w.withT c fun t => w.withT d fun dt =>
    .ok (w.setT c { t with children := t.children.set dt.id d })).map fun w => ((), w)) := by
  rw [oneChild, deref_some, ret_bind, tenantAt_bind]
  unfold V2.withT
  cases w.tobjs[d]? with
  | none => cases w.tobjs[c]? <;> exact rfl
  | some dt =>
    dsimp only
    rw [tenantAt_bind]
    cases w.tobjs[c]? <;> exact rfl

theorem oneRole_agrees {a : Nat} : Agrees (oneRole (some a) w) (((w.addRoles [a])).map fun w => ((), w)) := by
  rw [oneRole, deref_some, ret_bind, roleAt_bind, V2.addRoles, Dag.addRole, Out.loop]
  cases w.dag.objs[a]? <;> exact rfl

theorem oneRow_agrees {i : Nat} : Agrees (oneRow (some i) w) ((w.addPrincipalRole [i]).map fun w => ((), w)) := by
  rw [oneRow, write_bind, rowAt_bind, V2.addPrincipalRole, Out.loop]
  have h : V2.prAt { w with userRoles := w.userRoles ++ [entry w (some i)] } (some i) = w.prAt (some i) := rfl
  rw [h]
  cases hu : w.prAt (some i) with
  | panic => exact rfl
  | diverge => exact rfl
  | ok u =>
    obtain ⟨j, hj, hu⟩ := prAt_eq_ok.1 hu
    cases hj
    have hi := (List.getElem?_eq_some_iff.1 hu).1
    have he : entry w (some i) = some i := by simp [entry, hi]
    rw [he]
    exact rfl

theorem addTenant_agrees {c : Nat} : Agrees (addTenant (some c) w) ((w.addTenant c).map fun w => ((), w)) := by
  rw [addTenant, V2.addTenant, V2.withT, deref_some, ret_bind, tenantAt_bind]
  cases w.tobjs[c]? with
  | none => exact rfl
  | some t =>
    dsimp only
    rw [write_bind]
    have := Agrees.each (w := { w with tenants := w.tenants.set t.id c }) (h := id) (l := t.children)
      (f := fun kd => (tenantAt kd.2).bind fun d => write fun w => { w with parents := w.parents.set d.id c })
      (g := fun (w : V2) kd => w.withT kd.2 fun d => .ok { w with parents := w.parents.set d.id c }) fun kd _ w => by
        dsimp only [id]
        rw [tenantAt_bind, V2.withT]
        cases w.tobjs[kd.2]? <;> exact rfl
    rwa [List.map_id] at this

theorem onRow_agrees {i : Nat} {f : PR → PR} : Agrees (onRow (some i) f w) ((V2Op.onPR w i f).map fun w => ((), w)) := by
  rw [onRow, V2Op.onPR, deref_some, ret_bind, rowAt_bind]
  cases w.prAt (some i) <;> exact rfl

/-- A call with pointers that are not nil. -/
def ofOp : V2Op → NCall
  | .newRole n => .newRole n
  | .addPermission a ps => .addPermission (some a) (ps.map some)
  | .removePermission a ps => .removePermission (some a) (ps.map some)
  | .addRoles as => .addRoles (as.map some)
  | .addChildRole fuel p cs => .addChildRole fuel p cs
  | .newTenant id ns => .newTenant id ns
  | .addNamespace c n d => .addNamespace (some c) n d
  | .addScopes c n scs => .addScopes (some c) n (scs.map some)
  | .addChildTenant c ds => .addChildTenant (some c) (ds.map some)
  | .setStatus c s => .setStatus (some c) s
  | .addTenant c => .addTenants [some c]
  | .setDefaultTenant t => .setDefaultTenant t
  | .newPrincipalRole u => .newPrincipalRole u
  | .setExpiry i now e => .setExpiry (some i) now e
  | .setExpiryDuration i parse now a => .setExpiryDuration (some i) parse now a
  | .clearExpiry i => .clearExpiry (some i)
  | .addPrincipalRole is => .addPrincipalRole (is.map some)
  | .removePrincipalRole target => .removePrincipalRole target
  | .authorize e fuel site r => .authorize e fuel site r
  | .can e fuel site r roles => .can e fuel site r roles

theorem addRoles_agrees {as : List Nat} : Agrees (each oneRole (as.map some) w) ((w.addRoles as).map fun w => ((), w)) := by
  have h : w.addRoles as = Out.loop (fun w a => w.addRoles [a]) w as := by
    induction as generalizing w with
    | nil => rfl
    | cons a as ih =>
      rw [Out.loop]
      unfold V2.addRoles Dag.addRole
      rw [Out.loop, Out.loop]
      cases w.dag.objs[a]? with
      | none => rfl
      | some r => exact ih (w := { w with dag := { w.dag with roles := w.dag.roles.set r.name a } })
  rw [h]
  exact Agrees.each fun a _ w => oneRole_agrees

theorem addPrincipalRole_agrees {is : List Nat} : Agrees (each oneRow (is.map some) w) ((w.addPrincipalRole is).map fun w => ((), w)) := by
  refine Agrees.each fun i _ w => ?_
  have := oneRow_agrees (w := w) (i := i)
  rw [V2.addPrincipalRole, Out.loop] at this
  generalize ((w.prAt (some i)).bind _ : Out V2) = x at this ⊢
  cases x <;> exact this

theorem remove_agrees {target : PR} : Agrees (removePrincipalRole target w) (w.removePrincipalRole target) := by
  refine Agrees.look fun s _ => ?_
  by_cases h : s.2.2 = false
  · rw [if_pos h, if_pos h]; exact rfl
  · rw [if_neg h, if_neg h, write_bind, map_eq_bind]
    exact Agrees.look (w := { w with userRoles := s.1.take s.2.1 }) (f := fun w => w.keepIndex target w.index) fun ix _ => rfl

/-- C119. Without nil pointers a call ends as the model of calls that return says, and leaves what it says. -/
theorem go_agrees (op : V2Op) : Agrees ((ofOp op).go w) ((op.apply w).map fun w => ((), w)) := by
  cases op with
  | newRole n => exact rfl
  | addPermission a ps =>
    show Agrees (RQ.addPermission (some a) (ps.map some) w) _
    rw [RQ.addPermission, V2Op.apply, Dag.addPermission, deref_some, ret_bind, roleAt_bind]
    cases h : w.dag.objs[a]? with
    | none => exact rfl
    | some r => exact perms_each (g := addStr) h
  | removePermission a ps =>
    show Agrees (RQ.removePermission (some a) (ps.map some) w) _
    rw [RQ.removePermission, V2Op.apply, Dag.removePermission, deref_some, ret_bind, roleAt_bind]
    cases h : w.dag.objs[a]? with
    | none => exact rfl
    | some r => exact perms_each (g := fun s x => s.filter (· ≠ x)) h
  | addRoles as => exact addRoles_agrees
  | addChildRole fuel p cs =>
    show Agrees (RQ.addChildRole fuel p cs w) _
    rw [RQ.addChildRole, V2Op.apply]
    cases w.dag.addChildRole fuel p cs <;> exact rfl
  | newTenant id ns => exact rfl
  | addNamespace c n d =>
    show Agrees (RQ.addNamespace (some c) n d w) _
    rw [RQ.addNamespace, V2Op.apply, V2.tAddNamespace, V2.withT, deref_some, ret_bind, tenantAt_bind]
    cases h : w.tobjs[c]? with
    | none => exact rfl
    | some t =>
      dsimp only
      have hi : c < w.tobjs.length := (List.getElem?_eq_some_iff.1 h).1
      cases hn : t.namespaces.get n with
      | some s =>
        dsimp only
        rw [ret_bind]
        cases d with
        | true => simp only [if_true]; rw [tenantAt_bind, h]; exact rfl
        | false => simp [Agrees, V2.setT, set_same h]
      | none =>
        dsimp only [setTenant]
        rw [write_bind]
        cases d with
        | true =>
          simp only [if_true]
          rw [tenantAt_bind, V2.setT]
          rw [show ({ w with tobjs := w.tobjs.set c { t with namespaces := t.namespaces.set n [] } } : V2).tobjs[c]? = _ from
            List.getElem?_set_self hi]
          simp [Agrees, V2.setT]
        | false => simp [Agrees, V2.setT]
  | addScopes c n scs =>
    show Agrees (RQ.addScopes (some c) n (scs.map some) w) _
    rw [RQ.addScopes, V2Op.apply, V2.tAddScope, V2.withT, deref_some, ret_bind, tenantAt_bind]
    cases h : w.tobjs[c]? with
    | none => exact rfl
    | some t =>
      dsimp only
      cases hn : t.namespaces.get n with
      | none => exact rfl
      | some s => exact scopes_each h hn
  | addChildTenant c ds => exact Agrees.each fun d _ w => oneChild_agrees
  | setStatus c s =>
    show Agrees (RQ.setStatus (some c) s w) _
    rw [RQ.setStatus, V2Op.apply, V2.setStatus, V2.withT, deref_some, ret_bind, tenantAt_bind]
    cases w.tobjs[c]? <;> exact rfl
  | addTenant c =>
    show Agrees (each RQ.addTenant [some c] w) _
    have := addTenant_agrees (w := w) (c := c)
    rw [each, V2Op.apply]
    have h2 := Agrees.bind this (f := fun _ => each RQ.addTenant []) (g := fun w => .ok ((), w)) fun t _ => rfl
    rwa [← map_eq_bind] at h2
  | setDefaultTenant t => exact rfl
  | newPrincipalRole u => exact rfl
  | setExpiry i now e =>
    show Agrees (RQ.setExpiry (some i) now e w) _
    rw [RQ.setExpiry, if_neg (by simp)]
    exact onRow_agrees
  | setExpiryDuration i parse now a =>
    show Agrees (RQ.setExpiryDuration (some i) parse now a w) _
    rw [RQ.setExpiryDuration, if_neg (by simp)]
    exact onRow_agrees
  | clearExpiry i => exact onRow_agrees
  | addPrincipalRole is => exact addPrincipalRole_agrees
  | removePrincipalRole target =>
    have := (remove_agrees (w := w) (target := target)).drop
    rw [V2Op.apply, map_map, ← map_eq_bind]
    exact this
  | authorize e fuel site r =>
    have := (authorize_agrees (w := w) (e := e) (fuel := fuel) (site := site) (r := r)).drop
    rw [V2Op.apply, map_map, ← map_eq_bind]
    exact this
  | can e fuel site r roles =>
    have := (can_agrees (w := w) (e := e) (fuel := fuel) (site := site) (r := r) (roles := roles)).drop
    rw [V2Op.apply, map_map, ← map_eq_bind]
    exact this

/-! ## The invariant -/

theorem inv_nil (inv : Inv w) : Inv { w with userRoles := w.userRoles ++ [none] } :=
  ⟨inv.dag, inv.tenantsWF, inv.tenants, inv.nsWF, inv.childrenWF, inv.children, fun i hi => inv.users i (by simpa using hi), inv.indexWF,
    inv.indexWF2, inv.indexed⟩

/-- A step that either does nothing or does what a call does. -/
theorem Keeps.step {x : Rec α} (h : ∀ w : V2, w.Inv → (x w).2 = w ∨ ∃ op, V2Op.apply w op = .ok (x w).2) : Keeps V2.Inv x := by
  intro w inv
  rcases h w inv with h | ⟨op, h⟩
  · rw [h]; exact inv
  · exact inv_apply inv h

theorem step_deref {p : Option α} {k : α → Rec β} (h : ∀ a, p = some a → Keeps V2.Inv (k a)) : Keeps V2.Inv ((deref p).bind k) := by
  cases p with
  | none => exact fun _ h => h
  | some a => exact h a rfl

theorem onePerm_keeps {g : List Str → Str → List Str} {a : Nat} (hg : ∀ (w : V2) r x, w.dag.objs[a]? = some r → ∃ op, V2Op.apply w op =
    .ok { w with dag := { w.dag with objs := w.dag.objs.set a { r with perms := g r.perms (Perm2.string x) } } }) (q : Option Perm2) :
    Keeps V2.Inv (onePerm g a q) := by
  cases q with
  | none => exact fun _ h => h
  | some x =>
    refine Keeps.step fun w _ => ?_
    cases h : w.dag.objs[a]? with
    | none => exact .inl (by rw [onePerm_none h])
    | some r => exact .inr (by rw [onePerm_eq h]; exact hg w r x h)

theorem addPermission_keeps (p : Option Nat) (ps : List (Option Perm2)) : Keeps V2.Inv (addPermission p ps) :=
  step_deref fun a _ => (Keeps.look _).bind fun _ => Keeps.each (f := onePerm addStr a) (onePerm_keeps fun w r x h =>
    ⟨.addPermission a [x], by rw [V2Op.apply, Dag.addPermission, h]; rfl⟩) ps

theorem removePermission_keeps (p : Option Nat) (ps : List (Option Perm2)) : Keeps V2.Inv (removePermission p ps) :=
  step_deref fun a _ => (Keeps.look _).bind fun _ => Keeps.each (f := onePerm (fun s x => s.filter (· ≠ x)) a) (onePerm_keeps fun w r x h =>
    ⟨.removePermission a [x], by rw [V2Op.apply, Dag.removePermission, h]; rfl⟩) ps

theorem oneRole_keeps (p : Option Nat) : Keeps V2.Inv (oneRole p) := by
  cases p with
  | none => exact fun _ h => h
  | some a =>
    refine Keeps.step fun w _ => ?_
    rw [oneRole, deref_some, ret_bind, roleAt_bind]
    cases h : w.dag.objs[a]? with
    | none => exact .inl rfl
    | some r => exact .inr ⟨.addRoles [a], by rw [V2Op.apply, V2.addRoles, Dag.addRole, Out.loop, h]; rfl⟩

theorem oneScope_keeps (c : Nat) (n : Str) (q : Option Str) : Keeps V2.Inv (oneScope c n q) := by
  cases q with
  | none => exact fun _ h => h
  | some x =>
    intro w inv
    rw [oneScope, deref_some, ret_bind, tenantAt_bind]
    cases h : w.tobjs[c]? with
    | none => exact inv
    | some t =>
      cases hs : t.namespaces.get n with
      | some s =>
        exact inv_apply inv (op := .addScopes c n [x]) (by rw [V2Op.apply, V2.tAddScope, V2.withT, h]; dsimp only; rw [hs]; rfl)
      | none =>
        have h1 : V2Op.apply w (.addNamespace c n false) = .ok (w.setT c { t with namespaces := t.namespaces.set n [] }) := by
          rw [V2Op.apply, V2.tAddNamespace, V2.withT, h]; dsimp only; rw [hs]; rfl
        have i1 := inv_apply inv h1
        have hi : c < w.tobjs.length := (List.getElem?_eq_some_iff.1 h).1
        refine inv_apply i1 (op := .addScopes c n [x]) ?_
        rw [V2Op.apply, V2.tAddScope, V2.withT]
        rw [show (w.setT c { t with namespaces := t.namespaces.set n [] }).tobjs[c]? = _ from List.getElem?_set_self hi]
        simp only [GoMap.get_set, if_true, Out.map, setTenant, write_apply, V2.setT, map_set_set, List.set_set, List.foldl_cons, List.foldl_nil]
        rw [hs]; rfl

theorem oneChild_keeps (c : Nat) (q : Option Nat) : Keeps V2.Inv (oneChild c q) := by
  cases q with
  | none => exact fun _ h => h
  | some d =>
    refine Keeps.step fun w _ => ?_
    have ha := oneChild_agrees (w := w) (c := c) (d := d)
    rw [oneChild, deref_some, ret_bind, tenantAt_bind] at ha ⊢
    cases hd : w.tobjs[d]? with
    | none => exact .inl rfl
    | some dt =>
      dsimp only
      rw [tenantAt_bind]
      cases hc : w.tobjs[c]? with
      | none => exact .inl rfl
      | some t =>
        refine .inr ⟨.addChildTenant c [d], ?_⟩
        rw [V2Op.apply, V2.tAddChild, Out.loop, V2.withT, hc]
        dsimp only
        rw [V2.withT, hd]
        rfl

theorem addTenant_keeps (p : Option Nat) : Keeps V2.Inv (addTenant p) := by
  cases p with
  | none => exact fun _ h => h
  | some c =>
    intro w inv
    have ha := addTenant_agrees (w := w) (c := c)
    cases h : w.tobjs[c]? with
    | none => rw [addTenant, deref_some, ret_bind, tenantAt_bind, h]; exact inv
    | some t =>
      have ht : t ∈ w.tobjs := List.mem_of_getElem? h
      -- the children are there
      obtain ⟨w', hw'⟩ : ∃ w', w.addTenant c = .ok w' := by
        rw [V2.addTenant, V2.withT, h]
        dsimp only
        obtain ⟨s', e, _⟩ := Out.loop_total (P := fun v : V2 => v.tobjs = w.tobjs) (s := { w with tenants := w.tenants.set t.id c })
          (f := fun (w : V2) kd => w.withT kd.2 fun d => .ok { w with parents := w.parents.set d.id c }) (xs := t.children)
          (fun v kd hkd hv => by
            obtain ⟨d, hd, _⟩ := inv.children t ht kd.1 kd.2 hkd
            exact ⟨{ v with parents := v.parents.set d.id c }, by rw [V2.withT, hv, hd], hv⟩) rfl
        exact ⟨s', e⟩
      rw [hw'] at ha
      rw [show addTenant (some c) w = _ from ha]
      exact inv_addTenant inv hw'

theorem oneRow_nil {p : Option Nat} (h : entry w p = none) : oneRow p w = (.panic, { w with userRoles := w.userRoles ++ [none] }) := by
  rw [oneRow, write_bind, rowAt_bind, h]
  cases p with
  | none => rfl
  | some i =>
    have : w.prs[i]? = none := by
      rw [List.getElem?_eq_none_iff]
      simp [entry] at h; exact h
    rw [show V2.prAt { w with userRoles := w.userRoles ++ [none] } (some i) = .panic by simp only [V2.prAt]; rw [this]]

theorem oneRow_some {p : Option Nat} {i : Nat} (h : entry w p = some i) : p = some i ∧ ∃ w', oneRow p w = (.ok (), w') ∧ w.addPrincipalRole [i] = .ok w' := by
  cases p with
  | none => cases h
  | some j =>
    have hj : j = i ∧ i < w.prs.length := by
      simp only [entry, Option.bind_some] at h
      split at h
      · cases h; exact ⟨rfl, by assumption⟩
      · cases h
    obtain ⟨rfl, hi⟩ := hj
    have ha := oneRow_agrees (w := w) (i := j)
    have : ∃ w', w.addPrincipalRole [j] = .ok w' := by
      rw [V2.addPrincipalRole, Out.loop, V2.prAt, List.getElem?_eq_getElem hi]
      exact ⟨_, rfl⟩
    obtain ⟨w', hw'⟩ := this
    rw [hw'] at ha
    exact ⟨rfl, w', ha, hw'⟩

theorem oneRow_keeps (p : Option Nat) : Keeps V2.Inv (oneRow p) := by
  intro w inv
  cases h : entry w p with
  | none => rw [oneRow_nil h]; exact inv_nil inv
  | some i =>
    obtain ⟨_, w', h1, h2⟩ := oneRow_some h
    rw [h1]
    exact inv_addPrincipalRole inv h2

/-- A removal that panics has changed nothing: the index has no nil entry. -/
theorem remove_cases (inv : Inv w) (target : PR) : removePrincipalRole target w = (.panic, w) ∨
    ∃ b w', removePrincipalRole target w = (.ok b, w') ∧ w.removePrincipalRole target = .ok (b, w') := by
  have ha := remove_agrees (w := w) (target := target)
  have hd : Out.loop (w.removeStep target) (List.replicate w.userRoles.length none, 0, false) w.userRoles.zipIdx ≠ .diverge := by
    refine loop_ne_diverge (fun s a h => ?_) _ _
    unfold removeStep at h
    cases hm : w.matchesAt target a.1 with
    | ok b => rw [hm] at h; simp at h
    | panic => rw [hm] at h; simp at h
    | diverge => exact matchesAt_ne_diverge w target a.1 hm
  have hx : removePrincipalRole target w = (.panic, w) ∨ ∃ b w', removePrincipalRole target w = (.ok b, w') := by
    rw [removePrincipalRole, look_bind]
    generalize (Out.loop (w.removeStep target) (List.replicate w.userRoles.length none, 0, false) w.userRoles.zipIdx) = x at hd ⊢
    cases x with
    | panic => exact .inl rfl
    | diverge => exact absurd rfl hd
    | ok s =>
      right
      dsimp only
      by_cases hs : s.2.2 = false
      · rw [if_pos hs]; exact ⟨_, _, rfl⟩
      · rw [if_neg hs, write_bind, look_bind]
        have : ∃ ix, V2.keepIndex { w with userRoles := s.1.take s.2.1 } target w.index = .ok ix := by
          refine Out.collectI_total fun j e he => ?_
          have : ∃ m, V2.keepPrincipal { w with userRoles := s.1.take s.2.1 } target e.2 = .ok m := by
            refine Out.collectI_total fun j f hf => ?_
            have : ∃ is, V2.keepTenant { w with userRoles := s.1.take s.2.1 } target f.2 = .ok is := by
              refine Out.collectI_total fun j i hi => ?_
              obtain ⟨u, hu, _⟩ := (inv.indexed e.1 e.2 f.1 f.2 he hf).2 i hi
              rw [matchesAt_some (w := { w with userRoles := s.1.take s.2.1 }) hu]
              exact ⟨_, rfl⟩
            obtain ⟨is, his⟩ := this
            rw [his]; exact ⟨_, rfl⟩
          obtain ⟨m, hm⟩ := this
          rw [hm]; exact ⟨_, rfl⟩
        obtain ⟨ix, hix⟩ := this
        dsimp only
        rw [hix]
        exact ⟨_, _, rfl⟩
  rcases hx with h | ⟨b, w', h⟩
  · exact .inl h
  · exact .inr ⟨b, w', h, by have := ha.ok (a := b) (by rw [h]); rw [this, h]⟩

theorem onRow_step {p : Option Nat} {f : PR → PR} {op : Nat → V2Op} (h : ∀ w i, (op i).apply w = V2Op.onPR w i f) : Keeps V2.Inv (onRow p f) := by
  cases p with
  | none => exact fun _ h => h
  | some i =>
    refine Keeps.step fun w _ => ?_
    rw [onRow, deref_some, ret_bind, rowAt_bind]
    cases hu : w.prAt (some i) with
    | ok u => exact .inr ⟨op i, by rw [h, V2Op.onPR, hu]; rfl⟩
    | panic => exact .inl rfl
    | diverge => exact .inl rfl

theorem addNamespace_step {p : Option Nat} {n : Str} {d : Bool} (w : V2) :
    (addNamespace p n d w).2 = w ∨ ∃ op, V2Op.apply w op = .ok (addNamespace p n d w).2 := by
  cases p with
  | none => exact .inl rfl
  | some c =>
    cases ht : w.tobjs[c]? with
    | none => left; rw [addNamespace, deref_some, ret_bind, tenantAt_bind, ht]
    | some t =>
      right
      refine ⟨.addNamespace c n d, ?_⟩
      have ha := go_agrees (w := w) (.addNamespace c n d)
      have hok : ∃ w', V2Op.apply w (.addNamespace c n d) = .ok w' := by rw [V2Op.apply, V2.tAddNamespace, V2.withT, ht]; exact ⟨_, rfl⟩
      obtain ⟨w', hw'⟩ := hok
      rw [hw'] at ha ⊢
      rw [show addNamespace (some c) n d w = _ from ha]

/-- The invariant of the authorizer is kept by every call, however it ends. -/
theorem inv_go (c : NCall) : Keeps V2.Inv c.go := by
  cases c with
  | newRole n => exact Keeps.step fun w _ => .inr ⟨.newRole n, rfl⟩
  | addPermission a ps => exact addPermission_keeps a ps
  | removePermission a ps => exact removePermission_keeps a ps
  | addRoles as => exact Keeps.each oneRole_keeps as
  | addChildRole fuel p cs =>
    refine Keeps.step fun w _ => ?_
    show (RQ.addChildRole fuel p cs w).2 = w ∨ _
    rw [NCall.go, RQ.addChildRole]
    cases h : w.dag.addChildRole fuel p cs with
    | ok r => exact .inr ⟨.addChildRole fuel p cs, by rw [V2Op.apply, h]; rfl⟩
    | panic => exact .inl rfl
    | diverge => exact .inl rfl
  | newTenant id ns => exact Keeps.step fun w _ => .inr ⟨.newTenant id ns, rfl⟩
  | addNamespace c n d => exact Keeps.step fun w _ => addNamespace_step w
  | addScopes c n scs =>
    refine step_deref fun c _ => (Keeps.look _).bind fun t => ?_
    split
    · exact .ret _
    · exact Keeps.each (oneScope_keeps c n) scs
  | addChildTenant c ds => exact step_deref fun c _ => Keeps.each (oneChild_keeps c) ds
  | setStatus c s =>
    refine step_deref fun c _ => Keeps.step fun w _ => ?_
    rw [tenantAt_bind]
    cases h : w.tobjs[c]? with
    | none => exact .inl rfl
    | some t => exact .inr ⟨.setStatus c s, by rw [V2Op.apply, V2.setStatus, V2.withT, h]; rfl⟩
  | addTenants cs => exact Keeps.each addTenant_keeps cs
  | setDefaultTenant t => exact Keeps.step fun w _ => .inr ⟨.setDefaultTenant t, rfl⟩
  | newPrincipalRole u => exact Keeps.step fun w _ => .inr ⟨.newPrincipalRole u, rfl⟩
  | setExpiry i now e => exact Keeps.ite (.ret _) (onRow_step (op := fun i => .setExpiry i now e) fun _ _ => rfl)
  | setExpiryDuration i parse now a => exact Keeps.ite (.ret _) (onRow_step (op := fun i => .setExpiryDuration i parse now a) fun _ _ => rfl)
  | clearExpiry i => exact onRow_step (op := fun i => .clearExpiry i) fun _ _ => rfl
  | addPrincipalRole is => exact Keeps.each oneRow_keeps is
  | removePrincipalRole target =>
    refine Keeps.drop fun w inv => ?_
    rcases remove_cases inv target with h | ⟨b, w', h1, h2⟩
    · rw [h]; exact inv
    · rw [h1]; exact inv_remove inv h2
  | authorize e fuel site r => exact Keeps.drop fun w inv => (authorize_run inv).inv inv
  | can e fuel site r roles => exact Keeps.drop fun w inv => (can_run inv).inv inv

theorem inv_runAll (inv : Inv w) {cs : List NCall} (h : runAll w cs = some w') : Inv w' := by
  induction cs generalizing w with
  | nil => cases h; exact inv
  | cons c cs ih =>
    rw [runAll] at h
    split at h
    · cases h
    · exact ih (inv_go c w inv) h

/-! ## The assignments -/

/-- The call adds no nil pointer to the assignments. -/
def NCall.NoNil (w : V2) : NCall → Prop
  | .addPrincipalRole is => ∀ p ∈ is, entry w p ≠ none
  | _ => True

/-- The call is a removal that names nothing. -/
def NCall.Clears : NCall → Prop
  | .removePrincipalRole target => NamesNothing target
  | _ => False

/-- Nothing but `AddPrincipalRole` and `RemovePrincipalRole` changes the list of assignments. -/
theorem users_go {l : List (Option Nat)} {c : NCall} (h1 : ∀ is, c ≠ .addPrincipalRole is) (h2 : ∀ t, c ≠ .removePrincipalRole t) :
    Keeps (fun w => w.userRoles = l) c.go := by
  have wr : ∀ {f : V2 → V2}, (∀ w, (f w).userRoles = w.userRoles) → Keeps (fun w => w.userRoles = l) (write f) := fun h => .write fun w hw => (h w).trans hw
  have hlog : ∀ r m, Keeps (fun w => w.userRoles = l) (logMsg r m) := fun r m => wr fun w => by unfold V2.logMsg; split <;> rfl
  have hres : ∀ f fuel role, Keeps (fun w => w.userRoles = l) (resolve f fuel role) := fun f fuel role w hw => by
    unfold resolve; cases f w.dag fuel role <;> exact hw
  cases c with
  | newRole n => exact wr fun _ => rfl
  | addPermission a ps =>
    refine (Keeps.deref _).bind fun _ => (Keeps.look _).bind fun _ => Keeps.each (fun q => ?_) _
    refine (Keeps.deref _).bind fun _ => (Keeps.look _).bind fun _ => wr fun _ => rfl
  | removePermission a ps =>
    refine (Keeps.deref _).bind fun _ => (Keeps.look _).bind fun _ => Keeps.each (fun q => ?_) _
    refine (Keeps.deref _).bind fun _ => (Keeps.look _).bind fun _ => wr fun _ => rfl
  | addRoles as =>
    refine Keeps.each (fun q => ?_) _
    refine (Keeps.deref _).bind fun _ => (Keeps.look _).bind fun _ => wr fun _ => rfl
  | addChildRole fuel p cs =>
    intro w hw
    show (RQ.addChildRole fuel p cs w).2.userRoles = l
    unfold RQ.addChildRole
    cases w.dag.addChildRole fuel p cs <;> exact hw
  | newTenant id ns => exact wr fun _ => rfl
  | addNamespace c n d =>
    refine (Keeps.deref _).bind fun _ => (Keeps.look _).bind fun _ => Keeps.bind ?_ fun _ => Keeps.ite ((Keeps.look _).bind fun _ => wr fun _ => rfl) (.ret _)
    split
    · exact .ret _
    · exact wr fun _ => rfl
  | addScopes c n scs =>
    refine (Keeps.deref _).bind fun c => (Keeps.look _).bind fun t => ?_
    split
    · exact .ret _
    · refine Keeps.each (fun q => ?_) _
      refine (Keeps.deref _).bind fun _ => (Keeps.look _).bind fun _ => wr fun _ => rfl
  | addChildTenant c ds =>
    refine (Keeps.deref _).bind fun c => Keeps.each (fun q => ?_) _
    refine (Keeps.deref _).bind fun _ => (Keeps.look _).bind fun _ => (Keeps.look _).bind fun _ => wr fun _ => rfl
  | setStatus c s => refine (Keeps.deref _).bind fun c => (Keeps.look _).bind fun _ => wr fun _ => rfl
  | addTenants cs =>
    refine Keeps.each (fun p => ?_) _
    refine (Keeps.deref _).bind fun c => (Keeps.look _).bind fun t => Keeps.bind (wr fun _ => rfl) fun _ => Keeps.each (fun kd => ?_) _
    refine (Keeps.look _).bind fun _ => wr fun _ => rfl
  | setDefaultTenant t => exact wr fun _ => rfl
  | newPrincipalRole u => exact wr fun _ => rfl
  | setExpiry i now e => exact Keeps.ite (.ret _) ((Keeps.deref _).bind fun _ => (Keeps.look _).bind fun _ => wr fun _ => rfl)
  | setExpiryDuration i parse now a => exact Keeps.ite (.ret _) ((Keeps.deref _).bind fun _ => (Keeps.look _).bind fun _ => wr fun _ => rfl)
  | clearExpiry i => refine (Keeps.deref _).bind fun _ => (Keeps.look _).bind fun _ => wr fun _ => rfl
  | addPrincipalRole is => exact absurd rfl (h1 is)
  | removePrincipalRole target => exact absurd rfl (h2 target)
  | authorize e fuel site r => exact Keeps.drop (Keeps.authorize (hlog r) (hres _) e fuel site)
  | can e fuel site r roles => exact Keeps.drop (Keeps.can (hlog r) (hres _) e fuel site roles)

theorem drop_eq {x : Rec α} : (x.drop w).2 = (x w).2 := by
  unfold Rec.drop Rec.bind
  cases (x w).1 <;> rfl

theorem drop_panic {x : Rec α} : (x.drop w).1 = .panic ↔ (x w).1 = .panic := by
  unfold Rec.drop Rec.bind
  cases h : (x w).1 <;> simp

/-- A nil entry stays until a removal that names nothing. -/
theorem nil_go (inv : Inv w) (hn : none ∈ w.userRoles) {c : NCall} (hc : ¬ c.Clears) : none ∈ (c.go w).2.userRoles := by
  by_cases h1 : ∃ is, c = .addPrincipalRole is
  · obtain ⟨is, rfl⟩ := h1
    refine Keeps.each (P := fun w => none ∈ w.userRoles) (f := oneRow) (fun p => ?_) is w hn
    refine Keeps.bind (Keeps.write fun w (hw : none ∈ w.userRoles) => ?_) fun _ => (Keeps.look _).bind fun _ => (Keeps.deref _).bind fun _ => ?_
    · exact List.mem_append_left _ hw
    · exact Keeps.write fun w hw => hw
  by_cases h2 : ∃ t, c = .removePrincipalRole t
  · obtain ⟨t, rfl⟩ := h2
    show none ∈ ((removePrincipalRole t).drop w).2.userRoles
    rw [drop_eq]
    rcases remove_cases inv t with h | ⟨b, w', _, h⟩
    · rw [h]; exact hn
    · rw [C48_nil_panic hn hc] at h; cases h
  · have := users_go (l := w.userRoles) (c := c) (fun is h => h1 ⟨is, h⟩) (fun t h => h2 ⟨t, h⟩) w rfl
    rw [show (c.go w).2.userRoles = _ from this]; exact hn

/-- Without nil pointers among the assignments added, a call that panics leaves no nil entry. -/
theorem noNil_go (inv : Inv w) (hn : none ∉ w.userRoles) {c : NCall} (hc : c.NoNil w) (hp : (c.go w).1 = .panic) :
    none ∉ (c.go w).2.userRoles := by
  by_cases h1 : ∃ is, c = .addPrincipalRole is
  · obtain ⟨is, rfl⟩ := h1
    have key : ∀ (l : List (Option Nat)) (w1 : V2), w1.prs = w.prs → none ∉ w1.userRoles → (∀ p ∈ l, entry w p ≠ none) → none ∉ (each oneRow l w1).2.userRoles := by
      intro l
      induction l with
      | nil => intro w1 _ h _; exact h
      | cons p l ih =>
        intro w1 hw h hl
        have he : entry w1 p = entry w p := by unfold entry; rw [hw]
        cases hp : entry w p with
        | none => exact absurd hp (hl p (List.mem_cons_self ..))
        | some i =>
          obtain ⟨rfl, w2, h3, h4⟩ := oneRow_some (he.trans hp)
          rw [each, Rec.bind, h3]
          have f := addPrincipalRole_frame h4
          refine ih w2 ?_ ?_ fun q hq => hl q (List.mem_cons_of_mem _ hq)
          · rw [← hw]
            have h5 := congrArg V2.prs f.2
            exact h5
          · rw [f.1]; simp [h]
    exact key is w rfl hn hc
  by_cases h2 : ∃ t, c = .removePrincipalRole t
  · obtain ⟨t, rfl⟩ := h2
    show none ∉ ((removePrincipalRole t).drop w).2.userRoles
    rw [drop_eq]
    rcases remove_cases inv t with h | ⟨b, w', h, _⟩
    · rw [h]; exact hn
    · have := drop_panic.1 hp
      rw [h] at this; cases this
  · have := users_go (l := w.userRoles) (c := c) (fun is h => h1 ⟨is, h⟩) (fun t h => h2 ⟨t, h⟩) w rfl
    rw [show (c.go w).2.userRoles = _ from this]; exact hn

/-! ## Decisions with a nil entry -/

theorem loop_not_ok {σ α : Type} {f : σ → α → Out σ} {a : α} {l : List α} (ha : a ∈ l) (hf : ∀ s, f s a = .panic) (s s' : σ) :
    Out.loop f s l ≠ .ok s' := by
  induction l generalizing s with
  | nil => cases ha
  | cons x l ih =>
    intro h
    obtain ⟨s1, h1, h2⟩ := Out.bind_eq_ok.1 h
    rcases List.mem_cons.1 ha with rfl | ha
    · rw [hf] at h1; cases h1
    · exact ih ha s1 h2

theorem traverse_nil {e : Env} {site : List Val} {p : Str} {visit : Str → σ → Out σ} (hv : ∀ tid s s', visit tid s ≠ .ok s') {n c : Nat} {s : σ}
    {st : List Str × σ} : w.traverse e site p visit n c ([], s) ≠ .ok st := by
  intro h
  cases n with
  | zero => cases h
  | succ n =>
    obtain ⟨t, _, h⟩ := withT_eq_ok.1 h
    rw [if_neg (by simp)] at h
    obtain ⟨s1, h1, _⟩ := Out.bind_eq_ok.1 h
    exact hv _ _ _ h1

theorem nil_row (hn : none ∈ w.userRoles) : ∃ i, (none, i) ∈ w.userRoles.zipIdx := by
  obtain ⟨i, hi⟩ := List.mem_iff_getElem?.1 hn
  exact ⟨i, mem_zipIdx_iff.2 hi⟩

theorem perms_nil (hn : none ∈ w.userRoles) {e : Env} {fuel : Nat} {site : List Val} {p tid ns sc : Str} {x : Option (List Str)} {d : Dag}
    (h : w.resolvePerms e fuel site p tid ns sc = .ok (x, d)) : x = none := by
  unfold V2.resolvePerms at h
  split at h
  · cases h; rfl
  · obtain ⟨i, hi⟩ := nil_row hn
    obtain ⟨st, h1, _⟩ := Out.map_eq_ok.1 h
    exact absurd h1 (traverse_nil fun tid s s' => loop_not_ok hi (fun _ => rfl) s s')

theorem roles_nil (hn : none ∈ w.userRoles) {e : Env} {fuel : Nat} {site : List Val} {p tid ns : Str} {x : Option (List Str)} {d : Dag}
    (h : w.resolveRoles e fuel site p tid ns = .ok (x, d)) : x = none := by
  unfold V2.resolveRoles at h
  split at h
  · cases h; rfl
  · obtain ⟨i, hi⟩ := nil_row hn
    obtain ⟨st, h1, _⟩ := Out.map_eq_ok.1 h
    exact absurd h1 (traverse_nil fun tid s s' => loop_not_ok hi (fun _ => rfl) s s')

theorem log_users (r : Req2) (m : Msg) : (w.logMsg r m).userRoles = w.userRoles := by unfold V2.logMsg; split <;> rfl

theorem tenantLoop_nil {r : Req2} {body : Nat → Str → Str → V2 → Out (Bool × V2)}
    (hb : ∀ k tid ns (w : V2) b w', none ∈ w.userRoles → body k tid ns w = .ok (b, w') → b = false ∧ none ∈ w'.userRoles)
    (hn : none ∈ w.userRoles) {k : Nat} {cs : List Nat} {b : Bool} (h : V2.tenantLoop r body k cs w = .ok (b, w')) : b = false := by
  induction cs generalizing k w with
  | nil => cases h; rfl
  | cons c cs ih =>
    rw [V2.tenantLoop] at h
    obtain ⟨t, _, h⟩ := withT_eq_ok.1 h
    split at h
    · exact ih hn h
    · split at h
      · exact ih hn h
      · split at h
        · exact ih hn h
        · obtain ⟨⟨b1, w1⟩, h1, h2⟩ := Out.bind_eq_ok.1 h
          obtain ⟨rfl, hn1⟩ := hb _ _ _ _ _ _ hn h1
          exact ih hn1 h2

/-! ## C119 -/

/-- C119. However many calls panicked and were recovered from, a decision that is made to its end is the one that the roles, tenants and assignments then
there call for, as without panics. -/
theorem C119_decides {l : Bool} {cs : List NCall} (hr : runAll { logger := l } cs = some w) {now : Int} {e : Env} {fuel : Nat} {site : List Val} {r : Req2}
    (st : Steady w e now) (tw : ∀ c, Target w r c → NoTwins w r.principal c) {b : Bool} (h : w.authorize e fuel site r = .ok (b, w')) :
    b = true ↔ Grants2 w now r := C49_exact_partial (inv_runAll (inv_init l) hr) st tw h

/-- C119. Without nil pointers a call that returns is the call of the model of package v2, and so a history of such calls is a history of that model. -/
theorem C119_without {ops : List V2Op} (h : V2Op.run w ops = .ok w') : runAll w (ops.map ofOp) = some w' := by
  induction ops generalizing w with
  | nil => cases h; rfl
  | cons op ops ih =>
    obtain ⟨w1, h1, h2⟩ := Out.bind_eq_ok.1 h
    have ha := go_agrees (w := w) op
    rw [h1] at ha
    rw [List.map_cons, runAll, show (ofOp op).go w = _ from ha]
    exact ih h2

/-- C119. It panics when the model says so. -/
theorem C119_panics (op : V2Op) : ((ofOp op).go w).1 = .panic ↔ op.apply w = .panic := by
  have ha := go_agrees (w := w) op
  cases h : op.apply w with
  | ok w1 => rw [h] at ha; rw [show (ofOp op).go w = _ from ha]; simp
  | panic => rw [h] at ha; simp [show ((ofOp op).go w).1 = _ from ha]
  | diverge => rw [h] at ha; simp [show ((ofOp op).go w).1 = _ from ha]

/-- C119. `AddNamespace`, a write to `Status`, `AddChildRole`, the expiry setters and `RemovePrincipalRole` leave nothing behind when they panic. -/
theorem C119_nothing (inv : Inv w) {c : NCall} (hp : (c.go w).1 = .panic)
    (hc : (∃ p n d, c = .addNamespace p n d) ∨ (∃ p s, c = .setStatus p s) ∨ (∃ fuel p cs, c = .addChildRole fuel p cs) ∨ (∃ i now e, c = .setExpiry i now e) ∨
      (∃ i ps now a, c = .setExpiryDuration i ps now a) ∨ (∃ i, c = .clearExpiry i) ∨ ∃ t, c = .removePrincipalRole t) : (c.go w).2 = w := by
  have hrow : ∀ {p f}, (onRow p f w).1 = .panic → (onRow p f w).2 = w := by
    intro p f h
    cases p with
    | none => rfl
    | some i =>
      rw [onRow, deref_some, ret_bind, rowAt_bind] at h ⊢
      cases hu : w.prAt (some i) with
      | ok u => rw [hu] at h; cases h
      | panic => rfl
      | diverge => rfl
  rcases hc with ⟨p, n, d, rfl⟩ | ⟨p, s, rfl⟩ | ⟨fuel, p, cs, rfl⟩ | ⟨i, now, e, rfl⟩ | ⟨i, ps, now, a, rfl⟩ | ⟨i, rfl⟩ | ⟨t, rfl⟩
  · cases p with
    | none => rfl
    | some c =>
      cases h : w.tobjs[c]? with
      | none =>
        show (addNamespace (some c) n d w).2 = w
        rw [addNamespace, deref_some, ret_bind, tenantAt_bind, h]
      | some t =>
        have := (C119_panics (w := w) (.addNamespace c n d)).1 hp
        rw [V2Op.apply, V2.tAddNamespace, V2.withT, h] at this
        cases this
  · cases p with
    | none => rfl
    | some c =>
      have hp : (setStatus (some c) s w).1 = .panic := hp
      show (setStatus (some c) s w).2 = w
      rw [setStatus, deref_some, ret_bind, tenantAt_bind] at hp ⊢
      cases h : w.tobjs[c]? with
      | none => rfl
      | some t => rw [h] at hp; cases hp
  · have hp : (addChildRole fuel p cs w).1 = .panic := hp
    show (addChildRole fuel p cs w).2 = w
    rw [addChildRole] at hp ⊢
    cases h : w.dag.addChildRole fuel p cs with
    | ok r => rw [h] at hp; cases hp
    | panic => rfl
    | diverge => rfl
  · have hp : (setExpiry i now e w).1 = .panic := hp
    show (setExpiry i now e w).2 = w
    unfold setExpiry at hp ⊢
    split
    · rfl
    · rename_i h; rw [if_neg h] at hp; exact hrow hp
  · have hp : (setExpiryDuration i ps now a w).1 = .panic := hp
    show (setExpiryDuration i ps now a w).2 = w
    unfold setExpiryDuration at hp ⊢
    split
    · rfl
    · rename_i h; rw [if_neg h] at hp; exact hrow hp
  · exact hrow hp
  · show ((removePrincipalRole t).drop w).2 = w
    rw [drop_eq]
    rcases remove_cases inv t with h | ⟨b, w', h, _⟩
    · rw [h]
    · have := drop_panic.1 hp
      rw [h] at this; cases this

/-- C119. A call with several pointers that meets a nil one leaves what it did for those before it. -/
theorem C119_prefix {a c : Nat} {n : Str} {ps qs : List (Option Perm2)} {rs xs cs ts : List (Option Nat)} {ss : List (Option Str)} :
    ((NCall.addPermission (some a) ps).go w = (.ok (), w') → (NCall.addPermission (some a) (ps ++ none :: qs)).go w = (.panic, w')) ∧
    ((NCall.removePermission (some a) ps).go w = (.ok (), w') → (NCall.removePermission (some a) (ps ++ none :: qs)).go w = (.panic, w')) ∧
    ((NCall.addRoles rs).go w = (.ok (), w') → (NCall.addRoles (rs ++ none :: xs)).go w = (.panic, w')) ∧
    ((NCall.addChildTenant (some c) cs).go w = (.ok (), w') → (NCall.addChildTenant (some c) (cs ++ none :: xs)).go w = (.panic, w')) ∧
    ((NCall.addTenants ts).go w = (.ok (), w') → (NCall.addTenants (ts ++ none :: xs)).go w = (.panic, w')) ∧
    (∀ t s, w.tobjs[c]? = some t → t.namespaces.get n = some s → ∀ {us}, (NCall.addScopes (some c) n ss).go w = (.ok (), w') →
      (NCall.addScopes (some c) n (ss ++ none :: us)).go w = (.panic, w')) := by
  refine ⟨fun h => ?_, fun h => ?_, fun h => each_stop (f := oneRole) h rfl, fun h => each_stop (f := oneChild c) h rfl, fun h => each_stop (f := addTenant) h rfl,
    fun t s ht hs us h => ?_⟩
  · have h : addPermission (some a) ps w = _ := h
    show addPermission (some a) (ps ++ none :: qs) w = _
    rw [addPermission, deref_some, ret_bind, roleAt_bind] at h ⊢
    cases hr : w.dag.objs[a]? with
    | none => rw [hr] at h; cases h
    | some r => rw [hr] at h; exact each_stop (f := onePerm addStr a) h rfl
  · have h : removePermission (some a) ps w = _ := h
    show removePermission (some a) (ps ++ none :: qs) w = _
    rw [removePermission, deref_some, ret_bind, roleAt_bind] at h ⊢
    cases hr : w.dag.objs[a]? with
    | none => rw [hr] at h; cases h
    | some r => rw [hr] at h; exact each_stop (f := onePerm (fun s x => s.filter (· ≠ x)) a) h rfl
  · have h : addScopes (some c) n ss w = _ := h
    show addScopes (some c) n (ss ++ none :: us) w = _
    rw [addScopes, deref_some, ret_bind, tenantAt_bind, ht] at h ⊢
    dsimp only at h ⊢
    rw [hs] at h ⊢
    exact each_stop (f := oneScope c n) h rfl

/-- C119. `AddPrincipalRole` that meets a nil pointer leaves, besides what it did for the assignments before it, the nil pointer in the list of assignments. -/
theorem C119_assign {is js : List (Option Nat)} (h : (NCall.addPrincipalRole is).go w = (.ok (), w')) :
    (NCall.addPrincipalRole (is ++ none :: js)).go w = (.panic, { w' with userRoles := w'.userRoles ++ [none] }) :=
  each_stop (f := oneRow) h (oneRow_nil rfl)

/-- C119. A decision that panics leaves everything but the sets kept of the roles and the records of the log, and the sets it leaves are those the roles
resolve to. -/
theorem C119_asked (inv : Inv w) {e : Env} {fuel : Nat} {site : List Val} {r : Req2} :
    let w' := (authorize e fuel site r w).2
    w' = { w with dag := { w.dag with resolved := w'.dag.resolved }, log := w'.log } ∧ (∀ x, x ∈ w.dag.resolved → x ∈ w'.dag.resolved) ∧
      ∀ role x, w'.dag.Resolves (·.perms) role x ↔ w.dag.Resolves (·.perms) role x := by
  have hr := authorize_run inv (e := e) (fuel := fuel) (site := site) (r := r)
  refine ⟨?_, hr.dag.mono, hr.dag.res⟩
  generalize (authorize e fuel site r w).2 = w' at hr
  obtain ⟨h1, h2, h3⟩ := hr.dag.same
  have : w'.dag = { w.dag with resolved := w'.dag.resolved } := by
    show w'.dag = ⟨w.dag.objs, w.dag.roles, w.dag.edges, w'.dag.resolved⟩
    rw [← h1, ← h2, ← h3]
  rw [← this]; exact hr.frame

/-- C119. The same for `Can`. -/
theorem C119_can_asked (inv : Inv w) {e : Env} {fuel : Nat} {site : List Val} {r : Req2} {roles : List Str} :
    let w' := (can e fuel site r roles w).2
    w' = { w with dag := { w.dag with resolved := w'.dag.resolved }, log := w'.log } ∧ (∀ x, x ∈ w.dag.resolved → x ∈ w'.dag.resolved) ∧
      ∀ role x, w'.dag.Resolves (fun o => [o.name]) role x ↔ w.dag.Resolves (fun o => [o.name]) role x := by
  have hr := can_run inv (e := e) (fuel := fuel) (site := site) (r := r) (roles := roles)
  refine ⟨?_, hr.dag.mono, hr.dag.res⟩
  generalize (can e fuel site r roles w).2 = w' at hr
  obtain ⟨h1, h2, h3⟩ := hr.dag.same
  have : w'.dag = { w.dag with resolved := w'.dag.resolved } := by
    show w'.dag = ⟨w.dag.objs, w.dag.roles, w.dag.edges, w'.dag.resolved⟩
    rw [← h1, ← h2, ← h3]
  rw [← this]; exact hr.frame

/-- C119. With a nil pointer in the list of assignments nothing is granted any more: a decision that returns is a denial. -/
theorem C119_denied (hn : none ∈ w.userRoles) {e : Env} {fuel : Nat} {site : List Val} {r : Req2} {b : Bool} :
    (w.authorize e fuel site r = .ok (b, w') → b = false) ∧ ∀ roles, w.can e fuel site r roles = .ok (b, w') → b = false := by
  constructor
  · intro h
    obtain ⟨ts, _, h⟩ := Out.bind_eq_ok.1 h
    cases ts with
    | none => cases h; rfl
    | some cs =>
      refine tenantLoop_nil (fun k tid ns w b w' hn h => ?_) hn h
      obtain ⟨⟨x, d⟩, h1, h2⟩ := Out.bind_eq_ok.1 h
      cases perms_nil hn h1
      cases h2
      exact ⟨rfl, by rw [log_users]; exact hn⟩
  · intro roles h
    obtain ⟨ts, _, h⟩ := Out.bind_eq_ok.1 h
    cases ts with
    | none => cases h; rfl
    | some cs =>
      refine tenantLoop_nil (fun k tid ns w b w' hn h => ?_) hn h
      obtain ⟨⟨x, d⟩, h1, h2⟩ := Out.bind_eq_ok.1 h
      cases roles_nil hn h1
      cases h2
      exact ⟨rfl, by rw [log_users]; exact hn⟩

/-- C119. So after one `AddPrincipalRole` with a nil pointer, recovered from, no later calls, returning or panicking, lead to a grant again, unless one of
them is a `RemovePrincipalRole` that names nothing; a removal that names something panics. -/
theorem C119_forever (inv : Inv w) (hn : none ∈ w.userRoles) {cs : List NCall} (hc : ∀ c ∈ cs, ¬ c.Clears) (hr : runAll w cs = some v) :
    (∀ e fuel site r b w', (v.authorize e fuel site r = .ok (b, w') → b = false) ∧ ∀ roles, v.can e fuel site r roles = .ok (b, w') → b = false) ∧
    ∀ target, ¬ NamesNothing target → v.removePrincipalRole target = .panic := by
  have hv : none ∈ v.userRoles := by
    induction cs generalizing w with
    | nil => cases hr; exact hn
    | cons c cs ih =>
      rw [runAll] at hr
      split at hr
      · cases hr
      · exact ih (inv_go c w inv) (nil_go inv hn (hc c (List.mem_cons_self ..))) (fun d hd => hc d (List.mem_cons_of_mem _ hd)) hr
  exact ⟨fun e fuel site r b w' => C119_denied hv, fun target ht => C48_nil_panic hv ht⟩

/-- C119. The removal that names nothing takes the nil pointer away, with all other assignments. -/
theorem C119_cleared (inv : Inv w) (hn : none ∈ w.userRoles) {target : PR} (ht : NamesNothing target) :
    (NCall.removePrincipalRole target).go w = (.ok (), { w with userRoles := [], index := [] }) := by
  have ha := go_agrees (w := w) (.removePrincipalRole target)
  rw [V2Op.apply, C48_remove_all inv (List.ne_nil_of_mem hn) ht] at ha
  exact ha

/-- C119 as intended: an authorizer that answers still answers after a panic is recovered from. -/
def C119_full : Prop := ∀ (l : Bool) cs w (c : NCall) e site r roles, runAll { logger := l } cs = some w → (c.go w).1 = .panic →
  (∃ n, ∀ m ≥ n, ∃ x, w.can e m site r roles = .ok x) → ∃ n, ∀ m ≥ n, ∃ x, (c.go w).2.can e m site r roles = .ok x

/-- C119. It does if the panicking call puts no nil pointer among the assignments.  Missing: `AddPrincipalRole` with a nil pointer, see the counterexample;
lists that already have a nil entry (C48). -/
theorem C119_answers_partial {l : Bool} {cs : List NCall} (hr : runAll { logger := l } cs = some w) (hn : none ∉ w.userRoles) {c : NCall} (hc : c.NoNil w)
    (hp : (c.go w).1 = .panic) : ∃ n, ∀ m ≥ n, ∀ e site r,
      (∀ roles, ∃ b w', (c.go w).2.can e m site r roles = .ok (b, w')) ∧
      ((∀ d tid u x, Target (c.go w).2 r d → Covers (c.go w).2 r.principal d tid → Assigned (c.go w).2 u → u.principal = r.principal →
        u.tenant = tid → RolePerm (c.go w).2.dag u.role x → ¬ Hangs x (r.resource ++ [32] ++ r.action)) →
        ∃ b w', (c.go w).2.authorize e m site r = .ok (b, w')) := by
  have inv := inv_runAll (inv_init l) hr
  have inv' := inv_go c w inv
  have hn' := noNil_go inv hn hc hp
  obtain ⟨n1, h1⟩ := C55_can inv' hn'
  obtain ⟨n2, h2⟩ := C49_returns inv' hn'
  exact ⟨n1 + n2, fun m hm e site r => ⟨fun roles => h1 m (by omega) e site r roles, fun hh => h2 m (by omega) e site r hh⟩⟩

/-- `p` has role "r" in tenant "t". -/
def exHistory : List NCall := (exRoles ++ exTenant ++ exUser).map ofOp

/-- C119. `p` may read "x"; then `AddPrincipalRole(nil)` panics; after it the request of `p` panics, for `Authorize` and `Can`. -/
theorem C119_counterexample : ∃ w, runAll {} exHistory = some w ∧ (w.authorize exEnv 9 [] exReq).map (·.1) = .ok true ∧
    ((NCall.addPrincipalRole [none]).go w).1 = .panic ∧ ((NCall.addPrincipalRole [none]).go w).2.userRoles = [some 0, none] ∧
    ((NCall.addPrincipalRole [none]).go w).2.authorize exEnv 9 [] exReq = .panic ∧
    ((NCall.addPrincipalRole [none]).go w).2.can exEnv 9 [] exReq [str "r"] = .panic := by
  have h : (runAll {} exHistory).isSome ∧ ∀ w ∈ runAll {} exHistory, (w.authorize exEnv 9 [] exReq).map (·.1) = .ok true ∧
    ((NCall.addPrincipalRole [none]).go w).1 = .panic ∧ ((NCall.addPrincipalRole [none]).go w).2.userRoles = [some 0, none] ∧
    ((NCall.addPrincipalRole [none]).go w).2.authorize exEnv 9 [] exReq = .panic ∧
    ((NCall.addPrincipalRole [none]).go w).2.can exEnv 9 [] exReq [str "r"] = .panic := by decide +kernel
  obtain ⟨w, hw⟩ := Option.isSome_iff_exists.1 h.1
  exact ⟨w, hw, h.2 w hw⟩

/-- C119. So the intended property fails. -/
theorem C119_full_false : ¬ C119_full := by
  intro h
  obtain ⟨w, h1, _, h3, h4, _⟩ := C119_counterexample
  have inv := inv_runAll (inv_init false) h1
  have h5 : (runAll {} exHistory).all fun w => decide (none ∉ w.userRoles ∧ w.defTenant = []) = true := by decide +kernel
  rw [h1] at h5
  obtain ⟨hn, hd⟩ : none ∉ w.userRoles ∧ w.defTenant = [] := by simpa using h5
  obtain ⟨n0, k0⟩ := C55_can inv hn
  obtain ⟨n, hx⟩ := h false exHistory w (.addPrincipalRole [none]) exEnv [] { exReq with tenant := [] } [str "r"] h1 h3
    ⟨n0, fun m hm => by obtain ⟨b, w', hb⟩ := k0 m hm exEnv [] { exReq with tenant := [] } [str "r"]; exact ⟨_, hb⟩⟩
  have hv := inv_go (.addPrincipalRole [none]) w inv
  have hgo : (NCall.addPrincipalRole [none]).go w = (.panic, { w with userRoles := w.userRoles ++ [none] }) := C119_assign (is := []) (js := []) rfl
  rw [hgo] at hx hv
  dsimp only at hx hv
  have hnil : none ∈ ({ w with userRoles := w.userRoles ++ [none] } : V2).userRoles := by simp
  obtain ⟨x, hx⟩ := hx (n + V2.roleFuel { w with userRoles := w.userRoles ++ [none] }) (by omega)
  rw [can_panic hv hnil (by omega) (.inl (by simp [named, hd]))] at hx
  cases hx

/-- More calls, most of which panic. -/
def exMore : List NCall := exHistory ++ [.newRole (str "z"), .addRoles [some 2, none, some 0],
  .addScopes (some 0) (str "n") [some (str "s2"), none, some (str "s3")], .newTenant (str "c") none, .addChildTenant (some 0) [some 1, none], .addPermission none [],
  .addTenants [none, some 1], .setStatus none 1, .removePrincipalRole { principal := str "q" }, .setExpiry none 100 200]

/-- A nil pointer is added, `p` asks, the assignments of `p` are removed: all panic. -/
def exNil : List NCall := exHistory ++ [.addPrincipalRole [none, some 0], .authorize exEnv 9 [] exReq, .removePrincipalRole { principal := str "p" }]

/-- C119. Nil pointers met by the other calls: the role before it is registered; the scope before it is there; the child before it is linked; a decision goes on
as before. -/
theorem C119_cases : ∃ w, runAll {} exMore = some w ∧
    w.getRole (str "z") = some 2 ∧ w.tobjs.map (·.namespaces) = [[(str "n", [str "s", str "s2"])], []] ∧ w.tobjs.map (·.children) = [[(str "c", 1)], []] ∧
    w.getTenant (str "c") = none ∧ w.userRoles = [some 0] ∧ (w.authorize exEnv 9 [] exReq).map (·.1) = .ok true ∧
    (w.authorize exEnv 9 [] { exReq with scope := str "s2" }).map (·.1) = .ok true := by
  have h : (runAll {} exMore).isSome ∧ ∀ w ∈ runAll {} exMore,
    w.getRole (str "z") = some 2 ∧ w.tobjs.map (·.namespaces) = [[(str "n", [str "s", str "s2"])], []] ∧ w.tobjs.map (·.children) = [[(str "c", 1)], []] ∧
    w.getTenant (str "c") = none ∧ w.userRoles = [some 0] ∧ (w.authorize exEnv 9 [] exReq).map (·.1) = .ok true ∧
    (w.authorize exEnv 9 [] { exReq with scope := str "s2" }).map (·.1) = .ok true := by decide +kernel
  obtain ⟨w, hw⟩ := Option.isSome_iff_exists.1 h.1
  exact ⟨w, hw, h.2 w hw⟩

/-- C119. A decision that panics keeps the role set it resolved before the nil pointer; a removal that names nothing makes the authorizer answer again, without
assignments. -/
example : ∃ w, runAll { logger := true } exNil = some w ∧
    w.userRoles = [some 0, none] ∧ w.dag.resolved = [(str "r", [str "x read"])] ∧ w.log = [] ∧
    ((NCall.removePrincipalRole {}).go w).2.userRoles = [] ∧ (((NCall.removePrincipalRole {}).go w).2.authorize exEnv 9 [] exReq).map (·.1) = .ok false := by
  have h : (runAll { logger := true } exNil).isSome ∧
    ∀ w ∈ runAll { logger := true } exNil,
    w.userRoles = [some 0, none] ∧ w.dag.resolved = [(str "r", [str "x read"])] ∧ w.log = [] ∧
    ((NCall.removePrincipalRole {}).go w).2.userRoles = [] ∧ (((NCall.removePrincipalRole {}).go w).2.authorize exEnv 9 [] exReq).map (·.1) = .ok false := by decide +kernel
  obtain ⟨w, hw⟩ := Option.isSome_iff_exists.1 h.1
  exact ⟨w, hw, h.2 w hw⟩

end RQ
end Verif
