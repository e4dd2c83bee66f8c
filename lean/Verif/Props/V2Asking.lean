import Verif.Props.V2Cache

/-!
# Earlier decisions and later answers (package v2)
-/

namespace Verif
open Spec
namespace Spec

/-- The calls without the decisions. -/
def unasked2 (ops : List V2Op) : List V2Op := ops.filter fun op => !op.decides

/-- A set is kept for role `r`. -/
def KeepsSet (w : V2) (r : Str) : Prop := ∃ s, (r, s) ∈ w.dag.resolved

/-- `op`, made in state `u`, is the call of the history `ops` from which on a set is kept for role `r`. -/
def FirstKept (l : Bool) (ops : List V2Op) (r : Str) (u : V2) (op : V2Op) : Prop :=
  ∃ pre post v, ops = pre ++ op :: post ∧ V2Op.run { logger := l } pre = .ok u ∧ ¬ KeepsSet u r ∧ op.apply u = .ok v ∧ KeepsSet v r

/-- What is kept for role `r` by the history `ops`: what the role granted when an `Authorize` first went by it, or the
names of the roles at and below it when a `Can` did. -/
def KeptBy (l : Bool) (ops : List V2Op) (r x : Str) : Prop :=
  (∃ u e fuel site q, FirstKept l ops r u (.authorize e fuel site q) ∧ PermClosure u.dag r x) ∨
  (∃ u e fuel site q roles, FirstKept l ops r u (.can e fuel site q roles) ∧ Below u.dag r x)

end Spec

namespace Ask2

/-! ## Other calls read neither the role cache nor the log -/

/-- Contents of the role cache and the log. -/
abbrev Marks := GoMap Str (List Str) × List (Req2 × Msg)

/-- The role graph with another cache. -/
def lgD (d : Dag) (L : Marks) : Dag := { d with resolved := L.1 }

/-- The authorizer with another cache and log. -/
def lg (w : V2) (L : Marks) : V2 := { w with dag := lgD w.dag L, log := L.2 }

theorem lg_lg (w : V2) (L K : Marks) : lg (lg w L) K = lg w K := rfl

theorem loop_lg {α : Type} {f : V2 → α → Out V2} (L : Marks) (hf : ∀ w x, f (lg w L) x = (f w x).map (lg · L)) (xs : List α) :
    ∀ w, Out.loop f (lg w L) xs = (Out.loop f w xs).map (lg · L) := by
  induction xs with
  | nil => intro w; rfl
  | cons x xs ih =>
    intro w
    show (f (lg w L) x).bind _ = ((f w x).bind _).map _
    rw [hf]
    cases f w x with
    | ok v => exact ih v
    | panic => rfl
    | diverge => rfl

theorem addRole_lg (L : Marks) (as : List Nat) : ∀ d : Dag, (lgD d L).addRole as = (d.addRole as).map (lgD · L) := by
  induction as with
  | nil => intro d; rfl
  | cons a as ih =>
    intro d
    unfold Dag.addRole at ih ⊢
    simp only [Out.loop]
    show (match d.objs[a]? with | none => Out.panic | some r => _ : Out Dag).bind _ = _
    cases d.objs[a]? with
    | none => rfl
    | some r => exact ih { d with roles := d.roles.set r.name a }

theorem dfs_lg (d : Dag) (L : Marks) : ∀ n, (lgD d L).dfs n = d.dfs n := by
  intro n
  induction n with
  | zero => rfl
  | succ n ih =>
    funext r V
    simp only [Dag.dfs]
    rw [ih]
    rfl

theorem addChildRole_lg (d : Dag) (L : Marks) (fuel : Nat) (p : Str) (cs : List Str) :
    (lgD d L).addChildRole fuel p cs = (d.addChildRole fuel p cs).map fun r => (r.1, lgD r.2 L) := by
  unfold Dag.addChildRole Dag.checkCircular
  rw [dfs_lg]
  cases Dag.dfsLoop (d.dfs fuel) cs [p] with
  | ok x =>
    obtain ⟨b, V⟩ := x
    cases b <;> rfl
  | panic => rfl
  | diverge => rfl

theorem withT_lg {w : V2} {L : Marks} {c : Nat} {f g : T2 → Out V2} (h : ∀ t, f t = (g t).map (lg · L)) :
    (lg w L).withT c f = (w.withT c g).map (lg · L) := by
  unfold V2.withT
  show (match w.tobjs[c]? with | none => Out.panic | some t => f t : Out V2) = _
  cases w.tobjs[c]? with
  | none => rfl
  | some t => exact h t

theorem onPR_lg (w : V2) (L : Marks) (i : Nat) (f : PR → PR) : V2Op.onPR (lg w L) i f = (V2Op.onPR w i f).map (lg · L) := by
  unfold V2Op.onPR
  show (w.prAt (some i)).map _ = _
  cases w.prAt (some i) <;> rfl

/-- A call that is no decision does the same with another role cache and log. -/
theorem op_lg {op : V2Op} (h : op.decides = false) (w : V2) (L : Marks) : op.apply (lg w L) = (op.apply w).map (lg · L) := by
  cases op with
  | newRole n => rfl
  | addPermission a ps =>
    show ((lgD w.dag L).addPermission a ps).map _ = ((w.dag.addPermission a ps).map _).map _
    unfold Dag.addPermission
    show (match w.dag.objs[a]? with | none => Out.panic | some r => _ : Out Dag).map _ = _
    cases w.dag.objs[a]? <;> rfl
  | removePermission a ps =>
    show ((lgD w.dag L).removePermission a ps).map _ = ((w.dag.removePermission a ps).map _).map _
    unfold Dag.removePermission
    show (match w.dag.objs[a]? with | none => Out.panic | some r => _ : Out Dag).map _ = _
    cases w.dag.objs[a]? <;> rfl
  | addRoles as =>
    show ((lgD w.dag L).addRole as).map _ = ((w.dag.addRole as).map _).map _
    rw [addRole_lg]
    cases w.dag.addRole as <;> rfl
  | addChildRole fuel p cs =>
    show ((lgD w.dag L).addChildRole fuel p cs).map _ = ((w.dag.addChildRole fuel p cs).map _).map _
    rw [addChildRole_lg]
    cases w.dag.addChildRole fuel p cs <;> rfl
  | newTenant id ns => rfl
  | addNamespace c n d => exact withT_lg fun t => rfl
  | addScopes c n scs =>
    show ((lg w L).tAddScope c n scs).map _ = ((w.tAddScope c n scs).map _).map _
    unfold V2.tAddScope V2.withT
    show (match w.tobjs[c]? with | none => Out.panic | some t => _ : Out (Bool × V2)).map _ = _
    cases w.tobjs[c]? with
    | none => rfl
    | some t =>
      simp only
      cases t.namespaces.get n <;> rfl
  | addChildTenant c ds =>
    refine loop_lg L (fun w d => ?_) ds w
    refine withT_lg fun t => ?_
    refine withT_lg fun dt => ?_
    rfl
  | setStatus c s => exact withT_lg fun t => rfl
  | addTenant c =>
    refine withT_lg fun t => ?_
    refine loop_lg L (fun w kd => ?_) t.children { w with tenants := w.tenants.set t.id c }
    refine withT_lg fun d => ?_
    rfl
  | setDefaultTenant t => rfl
  | newPrincipalRole u => rfl
  | setExpiry i now e => exact onPR_lg ..
  | setExpiryDuration i parse now a => exact onPR_lg ..
  | clearExpiry i => exact onPR_lg ..
  | addPrincipalRole is =>
    refine loop_lg L (fun w i => ?_) is w
    show (w.prAt (some i)).bind _ = ((w.prAt (some i)).bind _).map _
    cases w.prAt (some i) <;> rfl
  | removePrincipalRole target =>
    show ((lg w L).removePrincipalRole target).map _ = ((w.removePrincipalRole target).map _).map _
    unfold V2.removePrincipalRole
    show ((Out.loop (w.removeStep target) (List.replicate w.userRoles.length none, 0, false) w.userRoles.zipIdx).bind fun s =>
      if s.2.2 = false then .ok (true, lg w L)
      else (w.keepIndex target w.index).map fun ix => (false, { lg w L with userRoles := s.1.take s.2.1, index := ix })).map _ = _
    cases Out.loop (w.removeStep target) (List.replicate w.userRoles.length none, 0, false) w.userRoles.zipIdx with
    | panic => rfl
    | diverge => rfl
    | ok s =>
      simp only [Out.bind_ok]
      by_cases hs : s.2.2 = false
      · rw [if_pos hs, if_pos hs]; rfl
      · rw [if_neg hs, if_neg hs]
        cases w.keepIndex target w.index <;> rfl
  | authorize e fuel site r => cases h
  | can e fuel site r roles => cases h

/-- A decision changes the role cache and the log only. -/
theorem decision {w v : V2} {op : V2Op} (inv : V2.Inv w) (hd : op.decides = true) (h : op.apply w = .ok v) :
    ∃ L, v = lg w L := by
  have key : ∀ {emit : R2 → List Str}, V2.Run emit w v → ∃ L, v = lg w L := fun run => by
    refine ⟨(v.dag.resolved, v.log), ?_⟩
    obtain ⟨h1, h2, h3⟩ := run.dag.same
    have : v.dag = lgD w.dag (v.dag.resolved, v.log) := by
      cases hv : v.dag; rw [hv] at h1 h2 h3
      simp only at h1 h2 h3
      subst h1; subst h2; subst h3; rfl
    unfold lg
    rw [← this]
    exact run.frame
  cases op with
  | authorize e fuel site q =>
    obtain ⟨⟨b, x⟩, h1, rfl⟩ := Out.map_eq_ok.1 h
    exact key (V2.authorize_run inv h1)
  | can e fuel site q roles =>
    obtain ⟨⟨b, x⟩, h1, rfl⟩ := Out.map_eq_ok.1 h
    exact key (V2.can_run inv h1)
  | _ => cases hd

theorem run_lg (ops : List V2Op) : ∀ {w v : V2} {L : Marks}, V2.Inv w → V2Op.run w ops = .ok v →
    V2Op.run (lg w L) (unasked2 ops) = .ok (lg v L) := by
  induction ops with
  | nil => intro w v L _ h; cases h; rfl
  | cons op ops ih =>
    intro w v L inv h
    obtain ⟨w1, h1, h2⟩ := Out.bind_eq_ok.1 h
    have inv1 := V2.inv_apply inv h1
    cases hd : op.decides with
    | true =>
      have : unasked2 (op :: ops) = unasked2 ops := by simp [unasked2, hd]
      rw [this]
      obtain ⟨K, rfl⟩ := decision inv hd h1
      have := ih (L := L) inv1 h2
      rwa [lg_lg] at this
    | false =>
      have : unasked2 (op :: ops) = op :: unasked2 ops := by simp [unasked2, hd]
      rw [this]
      have := op_lg hd w L
      rw [h1, Out.map_ok] at this
      exact Out.bind_eq_ok.2 ⟨_, this, ih inv1 h2⟩

end Ask2

namespace V2
open Ask2

/-- C148. Leaving the decisions out of a history changes nothing but the role cache and the log: what was registered,
assigned, revoked and linked is the same, and no call fails that went through. -/
theorem C148_state {l : Bool} {ops : List V2Op} {w : V2} (h : V2Op.run { logger := l } ops = .ok w) :
    V2Op.run { logger := l } (unasked2 ops) = .ok { fresh w with log := [] } :=
  run_lg (L := ([], [])) ops (reachable_inv (ops := []) rfl) h

theorem keeps_run {w v : V2} {ops : List V2Op} (inv : Inv w) (h : V2Op.run w ops = .ok v) {r : Str} (hk : KeepsSet w r) : KeepsSet v r := by
  obtain ⟨s, hs⟩ := hk
  exact ⟨s, (C47_frozen inv h hs).1⟩

/-- A set that is kept was kept from some call on. -/
theorem firstKept_of {l : Bool} {r : Str} (post : List V2Op) : ∀ {pre : List V2Op} {u w : V2}, V2Op.run { logger := l } pre = .ok u →
    ¬ KeepsSet u r → V2Op.run u post = .ok w → KeepsSet w r → ∃ v op, FirstKept l (pre ++ post) r v op := by
  induction post with
  | nil => intro pre u w _ h2 h3 h4; cases h3; exact absurd h4 h2
  | cons op post ih =>
    intro pre u w h1 h2 h3 h4
    obtain ⟨v, g1, g2⟩ := Out.bind_eq_ok.1 h3
    by_cases hv : KeepsSet v r
    · exact ⟨u, op, pre, post, v, rfl, h1, h2, g1, hv⟩
    · have : V2Op.run { logger := l } (pre ++ [op]) = .ok v :=
        Out.loop_append.trans (Out.bind_eq_ok.2 ⟨u, h1, Out.bind_eq_ok.2 ⟨v, g1, rfl⟩⟩)
      have := ih this hv g2 h4
      rwa [List.append_assoc] at this

/-- What is kept for the role is what the call that first kept it found. -/
theorem keptBy_iff {l : Bool} {ops : List V2Op} {w : V2} (h : V2Op.run { logger := l } ops = .ok w) {r : Str} {s : List Str}
    (hs : (r, s) ∈ w.dag.resolved) (x : Str) : x ∈ s ↔ KeptBy l ops r x := by
  have key : ∀ {u : V2} {op : V2Op}, FirstKept l ops r u op →
      ((∃ e fuel site q, op = .authorize e fuel site q) ∧ (x ∈ s ↔ PermClosure u.dag r x)) ∨
      ((∃ e fuel site q roles, op = .can e fuel site q roles) ∧ (x ∈ s ↔ Below u.dag r x)) := by
    rintro u op ⟨pre, post, v, rfl, h1, h2, h3, s', hs'⟩
    have invu := reachable_inv h1
    have invv := inv_apply invu h3
    have hpost : V2Op.run v post = .ok w := by
      obtain ⟨u', g1, g2⟩ := Out.bind_eq_ok.1 (Out.loop_append.symm.trans h)
      rw [show Out.loop V2Op.apply { logger := l } pre = .ok u from h1] at g1
      cases g1
      obtain ⟨v', g3, g4⟩ := Out.bind_eq_ok.1 g2
      rw [h3] at g3; cases g3
      exact g4
    have hk := (C47_frozen invv hpost hs').1
    have invw := reachable_inv h
    have : s' = s := by
      have g1 := (GoMap.mem_iff_get invw.dag.resolvedWF).1 hk
      rw [(GoMap.mem_iff_get invw.dag.resolvedWF).1 hs] at g1
      cases g1; rfl
    subst this
    have hn : ∀ s, (r, s) ∉ u.dag.resolved := fun s hs => h2 ⟨s, hs⟩
    have hin : ∀ {P : Prop}, ((∃ s, (r, s) ∈ v.dag.resolved ∧ x ∈ s) ∨ ((∀ s, (r, s) ∉ v.dag.resolved) ∧ P)) ↔ x ∈ s' := by
      intro P
      constructor
      · rintro (⟨s2, g1, g2⟩ | ⟨g1, _⟩)
        · have g3 := (GoMap.mem_iff_get invv.dag.resolvedWF).1 g1
          rw [(GoMap.mem_iff_get invv.dag.resolvedWF).1 hs'] at g3
          cases g3; exact g2
        · exact absurd hs' (g1 _)
      · exact fun hx => .inl ⟨s', hs', hx⟩
    cases hd : op.decides with
    | false =>
      rw [resolved_apply hd h3] at hs'
      exact absurd hs' (hn _)
    | true =>
      cases op with
      | authorize e fuel site q =>
        obtain ⟨⟨b, d⟩, g1, rfl⟩ := Out.map_eq_ok.1 h3
        refine .inl ⟨⟨_, _, _, _, rfl⟩, hin.symm.trans (((authorize_run invu g1).dag.res r x).trans ?_)⟩
        exact fits_uncached hn x
      | can e fuel site q roles =>
        obtain ⟨⟨b, d⟩, g1, rfl⟩ := Out.map_eq_ok.1 h3
        refine .inr ⟨⟨_, _, _, _, _, rfl⟩, hin.symm.trans (((can_run invu g1).dag.res r x).trans ((Dag.resolves_names invu.dag).trans ?_))⟩
        exact ⟨fun g => g.elim (fun ⟨s, g, _⟩ => absurd g (hn s)) (·.2), fun g => .inr ⟨hn, g⟩⟩
      | _ => cases hd
  obtain ⟨u, op, hu⟩ := firstKept_of (l := l) (r := r) ops (pre := []) rfl (by rintro ⟨s, hs⟩; cases hs) h ⟨s, hs⟩
  rw [List.nil_append] at hu
  constructor
  · intro hx
    rcases key hu with ⟨⟨e, fuel, site, q, rfl⟩, g⟩ | ⟨⟨e, fuel, site, q, roles, rfl⟩, g⟩
    · exact .inl ⟨u, e, fuel, site, q, hu, g.1 hx⟩
    · exact .inr ⟨u, e, fuel, site, q, roles, hu, g.1 hx⟩
  · rintro (⟨u', e, fuel, site, q, g1, g2⟩ | ⟨u', e, fuel, site, q, roles, g1, g2⟩)
    · rcases key g1 with ⟨_, g⟩ | ⟨⟨_, _, _, _, _, g⟩, _⟩
      · exact g.2 g2
      · cases g
    · rcases key g1 with ⟨⟨_, _, _, _, g⟩, _⟩ | ⟨_, g⟩
      · cases g
      · exact g.2 g2

/-- C148. What the decisions so far leave behind, for `Authorize`: a role that was gone by before counts with what was
found then - what it granted at that moment if it was an `Authorize`, the names of roles if it was a `Can`; any other
role counts with what it grants now. -/
theorem C148_perms {l : Bool} {ops : List V2Op} {w : V2} (h : V2Op.run { logger := l } ops = .ok w) (r x : Str) :
    RolePerm w.dag r x ↔ KeptBy l ops r x ∨ ((∀ u op, ¬ FirstKept l ops r u op) ∧ PermClosure w.dag r x) := by
  by_cases hk : KeepsSet w r
  · obtain ⟨s, hs⟩ := hk
    have h1 := (C47_frozen (ops := []) (reachable_inv h) rfl hs).2 x
    refine h1.trans ((keptBy_iff h hs x).trans ⟨.inl, fun g => g.elim id fun ⟨g, _⟩ => ?_⟩)
    obtain ⟨u, op, hu⟩ := firstKept_of (l := l) (r := r) ops (pre := []) rfl (by rintro ⟨s, hs⟩; cases hs) h ⟨s, hs⟩
    exact absurd hu (g u op)
  · have hn : ∀ s, (r, s) ∉ w.dag.resolved := fun s hs => hk ⟨s, hs⟩
    have hno : ∀ u op, ¬ FirstKept l ops r u op := by
      rintro u op ⟨pre, post, v, rfl, h1, h2, h3, h4⟩
      obtain ⟨u', g1, g2⟩ := Out.bind_eq_ok.1 (Out.loop_append.symm.trans h)
      rw [show Out.loop V2Op.apply { logger := l } pre = .ok u from h1] at g1
      cases g1
      obtain ⟨v', g3, g4⟩ := Out.bind_eq_ok.1 g2
      rw [h3] at g3; cases g3
      exact hk (keeps_run (inv_apply (reachable_inv h1) h3) g4 h4)
    refine (fits_uncached hn x).trans ⟨fun g => .inr ⟨hno, g⟩, fun g => g.elim ?_ (·.2)⟩
    rintro (⟨u', e, fuel, site, q, g1, _⟩ | ⟨u', e, fuel, site, q, roles, g1, _⟩)
    · exact absurd g1 (hno _ _)
    · exact absurd g1 (hno _ _)

/-- C148. The same for `Can`: a role not gone by before counts with the roles at and below it now. -/
theorem C148_roles {l : Bool} {ops : List V2Op} {w : V2} (h : V2Op.run { logger := l } ops = .ok w) (r x : Str) :
    RoleBelow w.dag r x ↔ KeptBy l ops r x ∨ ((∀ u op, ¬ FirstKept l ops r u op) ∧ Below w.dag r x) := by
  have hp := C148_perms h r x
  by_cases hk : KeepsSet w r
  · have hno : ¬ ∀ u op, ¬ FirstKept l ops r u op := fun g => by
      obtain ⟨u, op, hu⟩ := firstKept_of (l := l) (r := r) ops (pre := []) rfl (by rintro ⟨s, hs⟩; cases hs) h hk
      exact g u op hu
    obtain ⟨s, hs⟩ := hk
    have e : RoleBelow w.dag r x ↔ RolePerm w.dag r x := by
      unfold RoleBelow RolePerm
      have : ¬ ∀ s, (r, s) ∉ w.dag.resolved := fun g => g s hs
      simp only [this, false_and]
    rw [e, hp]
    simp only [hno, false_and]
  · have hn : ∀ s, (r, s) ∉ w.dag.resolved := fun s hs => hk ⟨s, hs⟩
    have hno : ∀ u op, ¬ FirstKept l ops r u op := by
      rintro u op ⟨pre, post, v, rfl, h1, h2, h3, h4⟩
      obtain ⟨u', g1, g2⟩ := Out.bind_eq_ok.1 (Out.loop_append.symm.trans h)
      rw [show Out.loop V2Op.apply { logger := l } pre = .ok u from h1] at g1
      cases g1
      obtain ⟨v', g3, g4⟩ := Out.bind_eq_ok.1 g2
      rw [h3] at g3; cases g3
      exact hk (keeps_run (inv_apply (reachable_inv h1) h3) g4 h4)
    have hkb : ¬ KeptBy l ops r x := by
      rintro (⟨u', e, fuel, site, q, g1, _⟩ | ⟨u', e, fuel, site, q, roles, g1, _⟩)
      · exact hno _ _ g1
      · exact hno _ _ g1
    constructor
    · rintro (⟨s, g, _⟩ | ⟨_, g⟩)
      · exact absurd g (hn s)
      · exact .inr ⟨hno, g⟩
    · rintro (g | ⟨_, g⟩)
      · exact absurd g hkb
      · exact .inr ⟨hn, g⟩

/-- C148 as intended: the decisions asked for so far do not change the next answer. -/
def C148_full : Prop := ∀ (l : Bool) ops w v e fuel site, V2Op.run { logger := l } ops = .ok w →
  V2Op.run { logger := l } (unasked2 ops) = .ok v →
    (∀ r b b' w' v', w.authorize e fuel site r = .ok (b, w') → v.authorize e fuel site r = .ok (b', v') → b = b') ∧
    (∀ r roles b b' w' v', w.can e fuel site r roles = .ok (b, w') → v.can e fuel site r roles = .ok (b', v') → b = b')

/-- C148. Asking `Can` makes a later `Authorize` deny what it would have granted, and asking `Authorize` makes a later
`Can` deny. -/
theorem C148_counterexample : ∃ w v w2 v2,
    V2Op.run {} (exRoles ++ exTenant ++ exUser ++ [.can exEnv 9 [] exReq [str "r"]]) = .ok w ∧
    V2Op.run {} (unasked2 (exRoles ++ exTenant ++ exUser ++ [.can exEnv 9 [] exReq [str "r"]])) = .ok v ∧
    V2Op.run {} (exRoles ++ exTenant ++ exUser ++ [.addChildRole 9 (str "r") [str "q"], .authorize exEnv 9 [] exReq]) = .ok w2 ∧
    V2Op.run {} (unasked2 (exRoles ++ exTenant ++ exUser ++ [.addChildRole 9 (str "r") [str "q"], .authorize exEnv 9 [] exReq])) = .ok v2 ∧
    (w.authorize exEnv 9 [] exReq).map (·.1) = .ok false ∧ (v.authorize exEnv 9 [] exReq).map (·.1) = .ok true ∧
    (w2.can exEnv 9 [] exReq [str "q"]).map (·.1) = .ok false ∧ (v2.can exEnv 9 [] exReq [str "q"]).map (·.1) = .ok true := by
  obtain ⟨w, h1, h2⟩ : ∃ w, V2Op.run {} (exRoles ++ exTenant ++ exUser ++ [.can exEnv 9 [] exReq [str "r"]]) = .ok w ∧
    (w.authorize exEnv 9 [] exReq).map (·.1) = .ok false := Out.chk_ok (by decide +kernel)
  obtain ⟨v, h3, h4⟩ : ∃ v, V2Op.run {} (unasked2 (exRoles ++ exTenant ++ exUser ++ [.can exEnv 9 [] exReq [str "r"]])) = .ok v ∧
    (v.authorize exEnv 9 [] exReq).map (·.1) = .ok true := Out.chk_ok (by decide +kernel)
  obtain ⟨w2, h5, h6⟩ : ∃ w, V2Op.run {} (exRoles ++ exTenant ++ exUser ++ [.addChildRole 9 (str "r") [str "q"], .authorize exEnv 9 [] exReq]) = .ok w ∧
    (w.can exEnv 9 [] exReq [str "q"]).map (·.1) = .ok false := Out.chk_ok (by decide +kernel)
  obtain ⟨v2, h7, h8⟩ : ∃ v, V2Op.run {} (unasked2 (exRoles ++ exTenant ++ exUser ++ [.addChildRole 9 (str "r") [str "q"], .authorize exEnv 9 [] exReq])) = .ok v ∧
    (v.can exEnv 9 [] exReq [str "q"]).map (·.1) = .ok true := Out.chk_ok (by decide +kernel)
  exact ⟨w, v, w2, v2, h1, h3, h5, h7, h2, h4, h6, h8⟩

/-- C148. So the intended property fails. -/
theorem C148_full_false : ¬ C148_full := by
  intro h
  obtain ⟨w, v, _, _, h1, h2, _, _, h3, h4, _⟩ := C148_counterexample
  obtain ⟨⟨b1, w1⟩, g1, g2⟩ := Out.map_eq_ok.1 h3
  obtain ⟨⟨b2, w2⟩, g3, g4⟩ := Out.map_eq_ok.1 h4
  simp only at g2 g4
  subst g2; subst g4
  exact Bool.false_ne_true ((h false _ w v exEnv 9 [] h1 h2).1 _ _ _ _ _ g1 g3)

section
variable {w v : V2} (hf : Frame w v) (hd : v.dag = w.dag)
include hf

theorem frame_target {r : Req2} {c : Nat} : Target v r c ↔ Target w r c := by
  have : named v r = named w r := by unfold named; rw [hf]
  unfold Target
  simp only [this, hf.assigned, hf.tenants, hf.tobjs]

theorem frame_counts {p ns t : Str} {now : Int} {u : PR} : Counts v p ns t now u ↔ Counts w p ns t now u := by
  unfold Counts
  simp only [hf.assigned]

theorem frame_steady {e : Env} {now : Int} (st : Steady w e now) : Steady v e now := fun u hu => st u (hf.assigned.1 hu)

include hd

theorem frame_grants {now : Int} {r : Req2} : Grants2 v now r ↔ Grants2 w now r := by
  have hs : ∀ c ns x, ScopedPerm v now r c ns x ↔ ScopedPerm w now r c ns x := fun c ns x => by
    unfold ScopedPerm; simp only [hf.covers, frame_counts hf, hd]
  have hu : ∀ c ns x, UnscopedPerm v now r c ns x ↔ UnscopedPerm w now r c ns x := fun c ns x => by
    unfold UnscopedPerm; simp only [hf.covers, frame_counts hf, hd]
  unfold Grants2 UsedPerm
  simp only [hs, hu, frame_target hf, hf.tobjs]

theorem frame_can {now : Int} {r : Req2} {roles : List Str} : Can2 v now r roles ↔ Can2 w now r roles := by
  unfold Can2 HeldRole
  simp only [hf.covers, frame_counts hf, hd, frame_target hf, hf.tobjs]

end

/-- C148. The answer of `Authorize` is the one that would have been given had nothing been asked before, if the
principal's roles that were gone by before were so by `Authorize` and have not changed what they grant since.
Missing: the other cases (see the counterexamples of C47 and C148). -/
theorem C148_authorize_partial {l : Bool} {ops : List V2Op} {w v w' v' : V2} {e : Env} {fuel : Nat} {site : List Val}
    (h : V2Op.run { logger := l } ops = .ok w) (hv : V2Op.run { logger := l } (unasked2 ops) = .ok v) {now : Int} (st : Steady w e now)
    {r : Req2} (tw : ∀ c, Target w r c → NoTwins w r.principal c)
    (hf : ∀ p, Assigned w p → p.principal = r.principal → ∀ u op, FirstKept l ops p.role u op →
      (∃ e fuel site q, op = .authorize e fuel site q) ∧ ∀ x, PermClosure u.dag p.role x ↔ PermClosure w.dag p.role x)
    {b b' : Bool} (ha : w.authorize e fuel site r = .ok (b, w')) (ha' : v.authorize e fuel site r = .ok (b', v')) : b = b' := by
  have inv := reachable_inv h
  rw [C148_state h] at hv
  cases hv
  have hfr : Frame w { fresh w with log := [] } := rfl
  have hfr2 : Frame (fresh w) { fresh w with log := [] } := rfl
  have fit : ∀ p, Assigned w p → p.principal = r.principal → Fits w.dag p.role := fun p h1 h2 x => by
    rw [C148_perms h]
    constructor
    · rintro ((⟨u, e, fuel, site, q, g1, g2⟩ | ⟨u, e, fuel, site, q, roles, g1, g2⟩) | ⟨_, g⟩)
      · exact ((hf p h1 h2 _ _ g1).2 x).1 g2
      · obtain ⟨⟨_, _, _, _, g⟩, _⟩ := hf p h1 h2 _ _ g1
        cases g
      · exact g
    · intro g
      by_cases hk : ∃ u op, FirstKept l ops p.role u op
      · obtain ⟨u, op, hu⟩ := hk
        obtain ⟨⟨e, fuel, site, q, rfl⟩, g1⟩ := hf p h1 h2 _ _ hu
        exact .inl (.inl ⟨u, e, fuel, site, q, hu, (g1 x).2 g⟩)
      · exact .inr ⟨fun u op hu => hk ⟨u, op, hu⟩, g⟩
  have k1 := (authorize_exact inv st tw ha).trans (grants_fresh fit)
  have inv' : Inv { fresh w with log := [] } := hfr2.inv (inv_fresh inv).dag (inv_fresh inv)
  have k2 := authorize_exact inv' (frame_steady hfr st) (fun c hc => hfr.noTwins.2 (tw c ((frame_target hfr).1 hc))) ha'
  rw [frame_grants hfr2 rfl] at k2
  rw [Bool.eq_iff_iff, k1, k2]

/-- C148. The same for `Can`: if the principal's roles that were gone by before were so by `Can` and have the same roles
below them as then. -/
theorem C148_can_partial {l : Bool} {ops : List V2Op} {w v w' v' : V2} {e : Env} {fuel : Nat} {site : List Val}
    (h : V2Op.run { logger := l } ops = .ok w) (hv : V2Op.run { logger := l } (unasked2 ops) = .ok v) {now : Int} (st : Steady w e now)
    {r : Req2} {roles : List Str} (tw : ∀ c, Target w r c → NoTwins w r.principal c)
    (hf : ∀ p, Assigned w p → p.principal = r.principal → ∀ u op, FirstKept l ops p.role u op →
      (∃ e fuel site q rs, op = .can e fuel site q rs) ∧ ∀ x, Below u.dag p.role x ↔ Below w.dag p.role x)
    {b b' : Bool} (ha : w.can e fuel site r roles = .ok (b, w')) (ha' : v.can e fuel site r roles = .ok (b', v')) : b = b' := by
  have inv := reachable_inv h
  rw [C148_state h] at hv
  cases hv
  have hfr : Frame w { fresh w with log := [] } := rfl
  have fit : ∀ p, Assigned w p → p.principal = r.principal → ∀ x, RoleBelow w.dag p.role x ↔ RoleBelow (fresh w).dag p.role x := fun p h1 h2 x => by
    have e1 : RoleBelow (fresh w).dag p.role x ↔ Below w.dag p.role x := by
      unfold RoleBelow
      have : (fresh w).dag.resolved = [] := rfl
      simp only [this, List.not_mem_nil, false_and, exists_false, not_false_eq_true, implies_true, true_and, false_or]
      exact Dag.SameBut.under (d := w.dag) (d' := (fresh w).dag) ⟨rfl, rfl, rfl⟩
    rw [C148_roles h, e1]
    constructor
    · rintro ((⟨u, e, fuel, site, q, g1, g2⟩ | ⟨u, e, fuel, site, q, roles, g1, g2⟩) | ⟨_, g⟩)
      · obtain ⟨⟨_, _, _, _, _, g⟩, _⟩ := hf p h1 h2 _ _ g1
        cases g
      · exact ((hf p h1 h2 _ _ g1).2 x).1 g2
      · exact g
    · intro g
      by_cases hk : ∃ u op, FirstKept l ops p.role u op
      · obtain ⟨u, op, hu⟩ := hk
        obtain ⟨⟨e, fuel, site, q, rs, rfl⟩, g1⟩ := hf p h1 h2 _ _ hu
        exact .inl (.inr ⟨u, e, fuel, site, q, rs, hu, (g1 x).2 g⟩)
      · exact .inr ⟨fun u op hu => hk ⟨u, op, hu⟩, g⟩
  have inv' : Inv { fresh w with log := [] } := hfr.inv (inv_fresh inv).dag inv
  have k1 := can_exact inv st tw ha
  have k2 := can_exact inv' (frame_steady hfr st) (fun c hc => hfr.noTwins.2 (tw c ((frame_target hfr).1 hc))) ha'
  rw [Bool.eq_iff_iff, k1, k2]
  unfold Can2
  have hh : ∀ c ns x, HeldRole { fresh w with log := [] } now r c ns x ↔ HeldRole w now r c ns x := fun c ns x => by
    unfold HeldRole
    simp only [hfr.covers, frame_counts hfr]
    constructor
    · rintro ⟨t, u, g1, g2, g3, g4⟩; exact ⟨t, u, g1, g2, g3, g4.imp id (fit u g2.1 g2.2.1 x).2⟩
    · rintro ⟨t, u, g1, g2, g3, g4⟩; exact ⟨t, u, g1, g2, g3, g4.imp id (fit u g2.1 g2.2.1 x).1⟩
  simp only [hh, frame_target hfr]
  rfl

/-- C148. Role `r` is first gone by in an `Authorize`: its permission removed later still counts, and without the
question it does not. -/
example : ∃ w u v, V2Op.run {} (exRoles ++ exTenant ++ exUser ++ [.authorize exEnv 9 [] exReq, .removePermission 0 [⟨str "x", str "read", []⟩]]) = .ok w ∧
    V2Op.run {} (exRoles ++ exTenant ++ exUser) = .ok u ∧
    V2Op.run {} (unasked2 (exRoles ++ exTenant ++ exUser ++ [.authorize exEnv 9 [] exReq, .removePermission 0 [⟨str "x", str "read", []⟩]])) = .ok v ∧
    FirstKept false (exRoles ++ exTenant ++ exUser ++ [.authorize exEnv 9 [] exReq, .removePermission 0 [⟨str "x", str "read", []⟩]]) (str "r") u
      (.authorize exEnv 9 [] exReq) ∧
    (w.authorize exEnv 9 [] exReq).map (·.1) = .ok true ∧ (v.authorize exEnv 9 [] exReq).map (·.1) = .ok false := by
  obtain ⟨w, h1, h2⟩ : ∃ w, V2Op.run {} (exRoles ++ exTenant ++ exUser ++ [.authorize exEnv 9 [] exReq, .removePermission 0 [⟨str "x", str "read", []⟩]]) = .ok w ∧
    (w.authorize exEnv 9 [] exReq).map (·.1) = .ok true := Out.chk_ok (by decide +kernel)
  obtain ⟨v, h3, h4⟩ : ∃ v, V2Op.run {} (unasked2 (exRoles ++ exTenant ++ exUser ++ [.authorize exEnv 9 [] exReq, .removePermission 0 [⟨str "x", str "read", []⟩]])) = .ok v ∧
    (v.authorize exEnv 9 [] exReq).map (·.1) = .ok false := Out.chk_ok (by decide +kernel)
  obtain ⟨u, h5, h6, h7⟩ : ∃ u, V2Op.run {} (exRoles ++ exTenant ++ exUser) = .ok u ∧ u.dag.resolved = [] ∧
    (V2Op.apply u (.authorize exEnv 9 [] exReq)).map (·.dag.resolved) = .ok [(str "r", [str "x read"])] := Out.chk_ok (by decide +kernel)
  obtain ⟨x, h8, h9⟩ := Out.map_eq_ok.1 h7
  refine ⟨w, u, v, h1, h5, h3, ⟨exRoles ++ exTenant ++ exUser, [.removePermission 0 [⟨str "x", str "read", []⟩]], x, by simp, h5, ?_, h8, ?_⟩, h2, h4⟩
  · rintro ⟨s, hs⟩; rw [h6] at hs; cases hs
  · exact ⟨_, by rw [h9]; exact List.mem_cons_self⟩

/-- C148. A history as in the theorems: nothing changes what the role grants after the question, and the answers agree. -/
example : ∃ w v, V2Op.run {} (exRoles ++ exTenant ++ exUser ++ [.authorize exEnv 9 [] exReq, .addChildRole 9 (str "q") [str "r"]]) = .ok w ∧
    V2Op.run {} (unasked2 (exRoles ++ exTenant ++ exUser ++ [.authorize exEnv 9 [] exReq, .addChildRole 9 (str "q") [str "r"]])) = .ok v ∧
    (w.authorize exEnv 9 [] exReq).map (·.1) = .ok true ∧ (v.authorize exEnv 9 [] exReq).map (·.1) = .ok true := by
  obtain ⟨w, h1, h2⟩ : ∃ w, V2Op.run {} (exRoles ++ exTenant ++ exUser ++ [.authorize exEnv 9 [] exReq, .addChildRole 9 (str "q") [str "r"]]) = .ok w ∧
    (w.authorize exEnv 9 [] exReq).map (·.1) = .ok true := Out.chk_ok (by decide +kernel)
  obtain ⟨v, h3, h4⟩ : ∃ v, V2Op.run {} (unasked2 (exRoles ++ exTenant ++ exUser ++ [.authorize exEnv 9 [] exReq, .addChildRole 9 (str "q") [str "r"]])) = .ok v ∧
    (v.authorize exEnv 9 [] exReq).map (·.1) = .ok true := Out.chk_ok (by decide +kernel)
  exact ⟨w, v, h1, h3, h2, h4⟩

end V2
end Verif
