import Verif.Model.V1Recover
import Verif.Props.V1Keep
import Verif.Props.V1Assign

/-!
# What a recovered panic leaves of a manager of package v1 (C120)
-/

namespace Verif
namespace RV
open Spec
variable {α β : Type} {w w' v : V1}

/-! ## Calls that return -/

/-- Calls that return lead from `w` to `w'`. -/
def AsIf (w w' : V1) : Prop := ∃ ops, V1Op.run w ops = .ok w'

theorem AsIf.refl (w : V1) : AsIf w w := ⟨[], rfl⟩

theorem AsIf.trans (h1 : AsIf w w') (h2 : AsIf w' v) : AsIf w v := by
  obtain ⟨c1, e1⟩ := h1
  obtain ⟨c2, e2⟩ := h2
  refine ⟨c1 ++ c2, ?_⟩
  induction c1 generalizing w with
  | nil => cases e1; exact e2
  | cons c cs ih =>
    rw [V1Op.run, Out.bind_eq_ok] at e1
    obtain ⟨u, h1, h2⟩ := e1
    rw [List.cons_append, V1Op.run, h1]
    exact ih h2

theorem AsIf.one {op : V1Op} (h : op.apply w = .ok w') : AsIf w w' := ⟨[op], by rw [V1Op.run, h]; rfl⟩

theorem AsIf.inv (inv : w.Inv) (h : AsIf w w') : w'.Inv := by
  obtain ⟨ops, h⟩ := h
  exact (V1Op.run_good h inv).1

/-! ## Computations -/

/-- What is left is what calls that return leave. -/
def Fine (x : Rec α) (w : V1) : Prop := AsIf w (x w).2

@[simp] theorem ret_apply (a : α) : ret a w = (.ok a, w) := rfl
@[simp] theorem fail_apply : (fail : Rec α) w = (.panic, w) := rfl
@[simp] theorem ret_bind (a : α) (f : α → Rec β) : (ret a).bind f = f a := rfl
@[simp] theorem fail_bind (f : α → Rec β) : (fail : Rec α).bind f = fail := rfl
@[simp] theorem deref_some (a : α) : deref (some a) = ret a := rfl
@[simp] theorem deref_none : (deref (none : Option α)) = fail := rfl
@[simp] theorem read_bind (f : V1 → α) (k : α → Rec β) : ((read f).bind k) w = k (f w) w := rfl
@[simp] theorem write_apply (f : V1 → V1) : write f w = (.ok (), f w) := rfl
@[simp] theorem write_bind (f : V1 → V1) (k : Unit → Rec β) : ((write f).bind k) w = k () (f w) := rfl
@[simp] theorem look_apply (f : V1 → Out α) : look f w = (f w, w) := rfl
theorem look_bind (f : V1 → Out α) (k : α → Rec β) : ((look f).bind k) w =
    match f w with | .ok a => k a w | .panic => (.panic, w) | .diverge => (.diverge, w) := rfl

theorem tenantAt_bind {c : Nat} {k : T1Obj → Rec β} : ((tenantAt c).bind k) w =
    match w.tobjs[c]? with | some t => k t w | none => (.panic, w) := by
  rw [tenantAt, look_bind]; cases w.tobjs[c]? <;> rfl
theorem roleAt_bind {r : Nat} {k : RoleObj → Rec β} : ((roleAt r).bind k) w =
    match w.heap.roles[r]? with | some ro => k ro w | none => (.panic, w) := by
  rw [roleAt, look_bind]; cases w.heap.roles[r]? <;> rfl
theorem groupAt_bind {g : Nat} {k : GroupObj → Rec β} : ((groupAt g).bind k) w =
    match w.heap.groups[g]? with | some x => k x w | none => (.panic, w) := by
  rw [groupAt, look_bind]; cases w.heap.groups[g]? <;> rfl

theorem Rec.bind_ok {x : Rec α} {f : α → Rec β} {a : α} (h : (x w).1 = .ok a) : (x.bind f) w = f a (x w).2 := by
  simp only [Rec.bind, h]

theorem Fine.bind {x : Rec α} {f : α → Rec β} (h : Fine x w) (hf : ∀ a, (x w).1 = .ok a → Fine (f a) (x w).2) : Fine (x.bind f) w := by
  unfold Fine Rec.bind
  cases e : (x w).1 with
  | ok a => exact AsIf.trans h (hf a e)
  | panic => exact h
  | diverge => exact h

theorem Fine.read {f : V1 → α} {k : α → Rec β} (h : Fine (k (f w)) w) : Fine ((RV.read f).bind k) w := h

theorem Fine.look {f : V1 → Out α} {k : α → Rec β} (h : ∀ a, f w = .ok a → Fine (k a) w) : Fine ((RV.look f).bind k) w :=
  Fine.bind (.refl w) h

theorem Fine.deref {p : Option α} {k : α → Rec β} (h : ∀ a, p = some a → Fine (k a) w) : Fine ((RV.deref p).bind k) w := by
  cases p with
  | none => exact .refl w
  | some a => exact h a rfl

theorem Fine.ret (a : α) : Fine (RV.ret a) w := .refl w

theorem Fine.drop {x : Rec α} (h : Fine x w) : Fine x.drop w := h.bind fun _ _ => .refl _

theorem Fine.each {f : α → Rec Unit} {l : List α} (inv : w.Inv) (h : ∀ x ∈ l, ∀ w : V1, w.Inv → Fine (f x) w) : Fine (RV.each f l) w := by
  induction l generalizing w with
  | nil => exact .refl w
  | cons x l ih =>
    have hx := h x (List.mem_cons_self ..) w inv
    exact hx.bind fun _ _ => ih (AsIf.inv inv hx) fun y hy => h y (List.mem_cons_of_mem _ hy)

/-- How a computation that changes nothing when it panics ends. -/
def whole (s : Out (α × V1)) (w : V1) : Out α × V1 :=
  match s with
  | .ok x => (.ok x.1, x.2)
  | .panic => (.panic, w)
  | .diverge => (.diverge, w)

theorem Fine.whole {x : Rec α} {s : Out (α × V1)} {op : V1Op} (h : x w = RV.whole s w) (hs : op.apply w = s.map (·.2)) : Fine x w := by
  unfold Fine
  rw [h]
  cases s with
  | ok x => exact .one hs
  | panic => exact .refl w
  | diverge => exact .refl w

theorem nsAt_bind {a : Nat} {k : NsObj → Rec β} : ((nsAt a).bind k) w =
    match w.nsobjs[a]? with | some n => k n w | none => (.panic, w) := by
  rw [nsAt, look_bind]; cases w.nsobjs[a]? <;> rfl

theorem Fine.tenantAt {c : Nat} {k : T1Obj → Rec β} (h : ∀ t, w.tobjs[c]? = some t → Fine (k t) w) : Fine ((RV.tenantAt c).bind k) w := by
  unfold Fine
  rw [tenantAt_bind]
  cases hc : w.tobjs[c]? with
  | none => exact .refl w
  | some t => exact h t hc

/-- The answer is not looked at. -/
def unit (s : Out V1) : Out (Unit × V1) := s.map fun w => ((), w)

theorem unit_bind {s : Out V1} {f : V1 → Out V1} : unit (s.bind f) = (unit s).bind fun y => unit (f y.2) := by
  cases s <;> rfl

theorem Fine.step {x : Rec Unit} {op : V1Op} (h : x w = RV.whole (unit (op.apply w)) w) : Fine x w :=
  Fine.whole h (by cases op.apply w <;> rfl)

/-! ## The single calls -/

theorem addTenant_eq (a : Nat) : addTenant (some a) w = whole ((w.addTenant a).map fun x => ((), x.2)) w := by
  rw [addTenant, V1.addTenant, deref_some, ret_bind, tenantAt_bind]
  cases w.tobjs[a]? with
  | none => rfl
  | some t =>
    dsimp only
    rw [setTenant, write_bind, register, read_bind]
    cases h : (w.setT a { t with managed := true }).tenants.get t.id with
    | none => rw [show w.tenants.get t.id = none from h]; rfl
    | some b => rw [show w.tenants.get t.id = some b from h]; rfl

theorem addRole_eq (r : Nat) : addRole (some r) w = whole ((w.addRole r).map fun x => ((), x.2)) w := by
  rw [addRole, V1.addRole, deref_some, ret_bind, roleAt_bind]
  cases w.heap.roles[r]? with
  | none => rfl
  | some t => dsimp only; rw [register, read_bind]; cases w.roles.get t.id <;> rfl

theorem addAttributeGroup_eq (g : Nat) : addAttributeGroup (some g) w = whole ((w.addAttributeGroup g).map fun x => ((), x.2)) w := by
  rw [addAttributeGroup, V1.addAttributeGroup, deref_some, ret_bind, groupAt_bind]
  cases w.heap.groups[g]? with
  | none => rfl
  | some t => dsimp only; rw [register, read_bind]; cases w.attrGroups.get t.id <;> rfl

theorem addNamespace_eq (a : Nat) : addNamespace (some a) w = whole ((w.addNamespace a).map fun x => ((), x.2)) w := by
  rw [addNamespace, V1.addNamespace, deref_some, ret_bind, nsAt_bind]
  cases w.nsobjs[a]? with
  | none => rfl
  | some t => dsimp only; rw [register, read_bind]; cases w.namespaces.get t.id <;> rfl

theorem addScope_eq (x : Str × Nat) : addScope (some x) w = (.ok (), (w.addScope x.1 x.2).2) := by
  rw [addScope, deref_some, ret_bind, register, read_bind, V1.addScope]; cases w.scopes.get x.1 <;> rfl

theorem addPrincipal_eq (x : Str × Nat) : addPrincipal (some x) w = (.ok (), (w.addPrincipal x.1 x.2).2) := by
  rw [addPrincipal, deref_some, ret_bind, register, read_bind, V1.addPrincipal]; cases w.principals.get x.1 <;> rfl

theorem addAttribute_eq (x : Attr × Nat) : addAttribute (some x) w = (.ok (), (w.addAttribute x.1 x.2).2) := by
  rw [addAttribute, deref_some, ret_bind, register, read_bind, V1.addAttribute]; cases w.attrs.get x.1.toStr <;> rfl

theorem lock_eq (r : Nat) (b : Bool) : roleLock (some r) b w = whole ((w.heap.setLock r b).map fun h => ((), { w with heap := h })) w := by
  rw [roleLock, RHeap.setLock, deref_some, ret_bind, roleAt_bind]
  cases w.heap.roles[r]? <;> rfl

theorem addGroup_eq (r ga : Nat) (hg : ga < w.heap.groups.length) :
    roleAddGroup (some r) (some ga) w = whole ((w.heap.addPermissionResourceGroup r ga).map fun x => (x.1, { w with heap := x.2 })) w := by
  rw [roleAddGroup, RHeap.addPermissionResourceGroup, deref_some, ret_bind, roleAt_bind]
  cases w.heap.roles[r]? with
  | none => rfl
  | some ro =>
    rw [List.getElem?_eq_getElem hg]
    dsimp only
    by_cases hl : ro.lock
    · simp [hl, whole, Out.map]
    · simp only [hl, Bool.false_eq_true, if_false]
      rw [deref_some, ret_bind, groupAt_bind, List.getElem?_eq_getElem hg]
      dsimp only
      split <;> rfl

theorem assign_eq {p r : Str} {c : Nat} {ns : Option Nat} {sc : Option Str} {m : List Bool} :
    addPrincipalRole p r (some c) ns sc m w = whole (unit (w.addPrincipalRole p r c ns sc m)) w := by
  rw [addPrincipalRole, V1.addPrincipalRole, deref_some, ret_bind, tenantAt_bind]
  cases w.tobjs[c]? with
  | none => rfl
  | some t => dsimp only; rw [look_bind]; cases w.nsID ns <;> rfl

theorem managed_eq (c : Nat) {k : T1Obj → Rec α} : ((managed (some c)).bind k) w =
    match w.tobjs[c]? with
    | none => (.panic, w)
    | some t => if t.managed then k t w else (.panic, w) := by
  rw [managed, deref_some, ret_bind, Rec.bind, tenantAt_bind]
  cases w.tobjs[c]? with
  | none => rfl
  | some t => by_cases h : t.managed <;> simp [h]

theorem tAssign_eq {p r : Str} {c d : Nat} {ns : Option Nat} {sc : Option Str} {m : List Bool} :
    tAddPrincipalRole (some c) p r (some d) ns sc m w = whole (unit (w.tAddPrincipalRole c p r d ns sc m)) w := by
  rw [tAddPrincipalRole, managed_eq, V1.tAddPrincipalRole, V1.withT]
  cases w.tobjs[c]? with
  | none => rfl
  | some t =>
    dsimp only
    split
    · exact assign_eq
    · rfl

theorem setDefault_eq {c : Nat} {n : Str} : tSetDefaultNamespace (some c) n w = whole (unit (w.tSetDefaultNamespace c n)) w := by
  rw [tSetDefaultNamespace, V1.tSetDefaultNamespace, V1.withT, deref_some, ret_bind, tenantAt_bind]
  cases w.tobjs[c]? with
  | none => rfl
  | some t => dsimp only; cases t.namespaces.get n <;> rfl

/-! ## Ending as described -/

/-- The computation ends as described by `s`; what it leaves when it panics is not described by `s`. -/
def Agrees (r : Out α × V1) (s : Out (α × V1)) : Prop :=
  match s with
  | .ok x => r = (.ok x.1, x.2)
  | .panic => r.1 = .panic
  | .diverge => r.1 = .diverge

theorem Agrees.whole (s : Out (α × V1)) : Agrees (RV.whole s w) s := by
  cases s <;> rfl

theorem Agrees.ok {r : Out α × V1} {s : Out (α × V1)} (h : Agrees r s) {a : α} (e : r.1 = .ok a) : s = .ok (a, r.2) := by
  unfold Agrees at h
  cases s with
  | ok x => rw [h] at e ⊢; cases e; rfl
  | panic => rw [h] at e; cases e
  | diverge => rw [h] at e; cases e

theorem Agrees.bind {x : Rec α} {s : Out (α × V1)} (h : Agrees (x w) s) {f : α → Rec β} {g : α × V1 → Out (β × V1)}
    (hf : ∀ a w', x w = (.ok a, w') → s = .ok (a, w') → Agrees (f a w') (g (a, w'))) : Agrees (x.bind f w) (s.bind g) := by
  unfold Rec.bind
  cases s with
  | ok y => rw [show x w = _ from h]; exact hf y.1 y.2 h rfl
  | panic => rw [show (x w).1 = _ from h]; rfl
  | diverge => rw [show (x w).1 = _ from h]; rfl

theorem Agrees.look {f : V1 → Out α} {k : α → Rec β} {g : α → Out (β × V1)} (h : ∀ a, f w = .ok a → Agrees (k a w) (g a)) :
    Agrees ((RV.look f).bind k w) ((f w).bind g) := by
  rw [look_bind]
  cases hf : f w with
  | ok a => exact h a hf
  | panic => rfl
  | diverge => rfl

theorem Agrees.drop {x : Rec α} {s : Out (α × V1)} (h : Agrees (x w) s) : Agrees (x.drop w) (s.map fun y => ((), y.2)) := by
  unfold Rec.drop Rec.bind
  cases s with
  | ok y => rw [show x w = _ from h]; rfl
  | panic => rw [show (x w).1 = _ from h]; rfl
  | diverge => rw [show (x w).1 = _ from h]; rfl

theorem Fine.eachP {P : V1 → Prop} {f : α → Rec Unit} {l : List α} (h : ∀ x ∈ l, ∀ w, P w → Fine (f x) w ∧ P (f x w).2) (hw : P w) :
    Fine (RV.each f l) w ∧ P (RV.each f l w).2 := by
  induction l generalizing w with
  | nil => exact ⟨.refl w, hw⟩
  | cons x l ih =>
    obtain ⟨h1, h2⟩ := h x (List.mem_cons_self ..) w hw
    have ih := ih (fun y hy => h y (List.mem_cons_of_mem _ hy)) h2
    refine ⟨h1.bind fun _ _ => ih.1, ?_⟩
    unfold RV.each Rec.bind
    cases (f x w).1 with
    | ok a => exact ih.2
    | panic => exact h2
    | diverge => exact h2

theorem set_same {κ ν : Type} [DecidableEq κ] {m : GoMap κ ν} {k : κ} {x : ν} (h : m.get k = some x) : m.set k x = m := by
  induction m with
  | nil => cases h
  | cons e m ih =>
    rw [GoMap.get] at h
    rw [GoMap.set]
    split at h
    · rename_i he; rw [if_pos he]; cases h; rw [← he]
    · rename_i he; rw [if_neg he, ih h]

theorem setList_same {l : List α} {i : Nat} {x : α} (h : l[i]? = some x) : l.set i x = l := by
  obtain ⟨hi, rfl⟩ := List.getElem?_eq_some_iff.1 h
  exact List.set_getElem_self hi

/-- The role is there and not locked. -/
def Open (r : Nat) (w : V1) : Prop := ∃ ro, w.heap.roles[r]? = some ro ∧ ro.lock = false

theorem Fine.roleDescendant {p : Option Nat} {ds : List (Option Nat)} : Fine (roleAddDescendent p ds) w := by
  rw [roleAddDescendent]
  refine Fine.deref fun r _ => ?_
  unfold Fine
  rw [roleAt_bind]
  cases hr : w.heap.roles[r]? with
  | none => exact .refl w
  | some ro =>
    dsimp only
    cases hl : ro.lock with
    | true => exact .refl w
    | false =>
      simp only [Bool.false_eq_true, if_false]
      refine Fine.bind (Fine.eachP (P := Open r) (fun q _ w ⟨ro, hr, hl⟩ => ?_) ⟨ro, hr, hl⟩).1 fun _ _ => .refl _
      cases q with
      | none => exact ⟨.refl w, ro, hr, hl⟩
      | some d =>
        unfold Fine
        rw [deref_some, ret_bind, roleAt_bind]
        cases hd : w.heap.roles[d]? with
        | none => exact ⟨.refl w, ro, hr, hl⟩
        | some dro =>
          dsimp only
          rw [roleAt_bind, hr]
          dsimp only
          split
          · exact ⟨.refl w, ro, hr, hl⟩
          · rename_i hn
            refine ⟨AsIf.one (op := .role (.addDesc r [d])) ?_, { ro with desc := ro.desc.set dro.id d }, ?_, hl⟩
            · rw [V1Op.apply, RoleOp.apply, RHeap.addDescendant, hr]
              simp only [hl, Bool.false_eq_true, if_false, RHeap.addDescendant.loop, hd, hr, hn]
              rfl
            · simp only [setRole, write_apply]
              exact List.getElem?_set_self (RHeap.lt_of_get hr)

theorem Fine.roleLock {p : Option Nat} {b : Bool} : Fine (roleLock p b) w := by
  cases p with
  | none => exact .refl w
  | some r => exact Fine.whole (op := .role (.lock r b)) (lock_eq r b) (by rw [V1Op.apply, RoleOp.apply]; cases w.heap.setLock r b <;> rfl)

theorem Fine.roleGroup {p q : Option Nat} : Fine (roleAddGroup p q) w := by
  rw [roleAddGroup]
  refine Fine.deref fun r _ => ?_
  unfold Fine
  rw [roleAt_bind]
  cases hr : w.heap.roles[r]? with
  | none => exact .refl w
  | some ro =>
    dsimp only
    cases hl : ro.lock with
    | true => exact .refl w
    | false =>
      simp only [Bool.false_eq_true, if_false]
      refine Fine.deref fun ga _ => ?_
      unfold Fine
      rw [groupAt_bind]
      cases hg : w.heap.groups[ga]? with
      | none => exact .refl w
      | some g =>
        dsimp only
        split
        · exact .refl w
        · rename_i hn
          refine AsIf.one (op := .role (.addGroup r ga)) ?_
          rw [V1Op.apply, RoleOp.apply, RHeap.addPermissionResourceGroup, hr, hg]
          simp [hl, hn, Out.map, setRole]

/-- The role is there, not locked, and has the group. -/
def Holds (r ga : Nat) (group : Str) (w : V1) : Prop :=
  ∃ ro g, w.heap.roles[r]? = some ro ∧ ro.lock = false ∧ ro.perms.get group = some ga ∧ w.heap.groups[ga]? = some g

theorem Fine.rolePermission {p : Option Nat} {group : Str} {as : List (Option Attr)} (inv : w.Inv) : Fine (roleAddPermission p group as) w := by
  rw [roleAddPermission]
  refine Fine.deref fun r _ => ?_
  unfold Fine
  rw [roleAt_bind]
  cases hr : w.heap.roles[r]? with
  | none => exact .refl w
  | some ro =>
    dsimp only
    cases hl : ro.lock with
    | true => exact .refl w
    | false =>
      simp only [Bool.false_eq_true, if_false]
      cases hg : ro.perms.get group with
      | none =>
        refine Fine.look fun as' _ => ?_
        refine AsIf.one (op := .role (.addPerm r group as')) ?_
        rw [V1Op.apply, RoleOp.apply, RHeap.addPermission, hr]
        simp [hl, hg, Out.map]
      | some ga =>
        obtain ⟨g, hga⟩ : ∃ g, w.heap.groups[ga]? = some g := by
          have := inv.heap.perms ro (List.mem_of_getElem? hr) _ (GoMap.get_some_mem hg)
          exact ⟨_, List.getElem?_eq_getElem this⟩
        obtain ⟨f1, f2⟩ := Fine.eachP (P := Holds r ga group) (f := keepAttr ga) (l := as) (fun q _ w ⟨ro, g, hr, hl, hg, hga⟩ => by
          cases q with
          | none => exact ⟨.refl w, ro, g, hr, hl, hg, hga⟩
          | some a =>
            unfold Fine keepAttr
            rw [deref_some, ret_bind, groupAt_bind, hga]
            dsimp only
            split
            · exact ⟨.refl w, ro, g, hr, hl, hg, hga⟩
            · rename_i hn
              refine ⟨AsIf.one (op := .role (.addPerm r group [a])) ?_, ro, _, hr, hl, hg, List.getElem?_set_self (RHeap.lt_of_get hga)⟩
              rw [V1Op.apply, RoleOp.apply, RHeap.addPermission, hr]
              have e : ({ ro with perms := ro.perms.set group ga } : RoleObj) = ro := by rw [set_same hg]
              simp only [hl, Bool.false_eq_true, if_false, hg, hga, RHeap.addAttrsKeep, hn]
              simp only [hl] at e
              rw [e, setList_same hr]
              rfl) ⟨ro, g, hr, hl, hg, hga⟩
        refine Fine.bind f1 fun _ _ => ?_
        obtain ⟨ro', g', hr', hl', hg', hga'⟩ := f2
        unfold Fine
        rw [roleAt_bind, hr']
        dsimp only
        rw [setRole, write_bind, ret_apply, set_same hg', setList_same hr']
        exact .refl _

theorem Fine.groupAttributes {p : Option Nat} {as : List (Option Attr)} (inv : w.Inv) : Fine (groupAddAttributes p as) w := by
  refine Fine.each inv fun q _ w _ => Fine.deref fun a _ => Fine.deref fun ga _ => ?_
  unfold Fine
  rw [groupAt_bind]
  cases hg : w.heap.groups[ga]? with
  | none => exact .refl w
  | some g => exact AsIf.one (op := .role (.addAttrs ga [a])) (by rw [V1Op.apply, RoleOp.apply, RHeap.groupAddAttributes, hg]; rfl)

theorem Fine.toRole {role group : Str} {as : List (Option Attr)} (inv : w.Inv) : Fine (addPermissionsToRole role group as) w := by
  rw [addPermissionsToRole]
  refine Fine.read ?_
  split
  · exact .refl w
  refine Fine.read ?_
  split
  · exact .refl w
  unfold Fine
  rw [groupAt_bind]
  split
  · refine Fine.look fun b _ => ?_
    split
    · exact Fine.rolePermission inv
    · exact .refl w
  · exact .refl w

theorem each_one {f : α → Rec Unit} {x : α} : RV.each f [x] w = f x w := by
  show (f x).bind (fun _ => ret ()) w = f x w
  unfold Rec.bind
  cases h : f x w with
  | mk a v => cases a <;> rfl

theorem bind_of {x : Rec α} {f : α → Rec β} {a : α} (h : x w = (.ok a, w')) : (x.bind f) w = f a w' := by
  unfold Rec.bind; rw [h]

/-! ## Tenants and namespaces -/

theorem setT_same {c : Nat} {t : T1Obj} (h : w.tobjs[c]? = some t) : w.setT c t = w := by
  unfold V1.setT; rw [setList_same h]

theorem setNs_same {a : Nat} {no : NsObj} (h : w.nsobjs[a]? = some no) : w.setNs a no = w := by
  unfold V1.setNs; rw [setList_same h]

/-- `if _, ok := m.Get(k); !ok { m.Set(k, v) }`, the map being part of something. -/
theorem absent_eq {m : GoMap Str Nat} {k : Str} {obj : Nat} {x : GoMap Str Nat → V1} {y : Rec Unit} (hx : x m = w) (hy : y w = (.ok (), x (m.set k obj))) :
    (if (m.get k).isSome then ret () else y) w = (.ok (), x (V1.setAbsent m k obj)) := by
  unfold V1.setAbsent
  cases m.get k with
  | none => exact hy
  | some b => dsimp only [Option.isSome]; rw [if_pos rfl, hx]; rfl

/-- Objects the sequential description is given one after the other. -/
structure Steps (f : Option β → Rec Unit) (g : V1 → β → Out V1) (op : List β → V1Op) : Prop where
  nil : f none = fail
  step : ∀ (w : V1) x, w.Inv → f (some x) w = whole (unit (g w x)) w
  op : ∀ w l, (op l).apply w = Out.loop g w l

theorem loop_one {g : V1 → β → Out V1} {x : β} : Out.loop g w [x] = g w x := by
  rw [Out.loop]; cases g w x <;> rfl

theorem Steps.agrees {f : Option β → Rec Unit} {g : V1 → β → Out V1} {op : List β → V1Op} (h : Steps f g op) {l : List β} (inv : w.Inv) :
    Agrees (each f (l.map some) w) (unit ((op l).apply w)) := by
  rw [h.op]
  induction l generalizing w with
  | nil => rfl
  | cons x l ih =>
    rw [List.map_cons, each, Out.loop, unit_bind]
    refine Agrees.bind (by rw [h.step w x inv]; exact .whole _) fun _ w' _ hs => ih ?_
    have : g w x = .ok w' := by
      cases hg : g w x with
      | ok y => rw [hg] at hs; cases hs; rfl
      | panic => rw [hg] at hs; cases hs
      | diverge => rw [hg] at hs; cases hs
    exact AsIf.inv inv (.one (op := op [x]) (by rw [h.op, loop_one, this]))

theorem Steps.fine {f : Option β → Rec Unit} {g : V1 → β → Out V1} {op : List β → V1Op} (h : Steps f g op) {l : List (Option β)} (inv : w.Inv) :
    Fine (each f l) w := by
  refine Fine.each inv fun q _ w iw => ?_
  cases q with
  | none => rw [h.nil]; exact .refl w
  | some x => exact Fine.step (op := op [x]) (by rw [h.op, loop_one]; exact h.step w x iw)

theorem desc_steps (c : Nat) : Steps
    (fun x => (deref (some c)).bind fun c => (deref x).bind fun d => (tenantAt c).bind fun t => (tenantAt d).bind fun dt =>
      if (t.desc.get dt.id).isSome then ret () else setTenant c { t with desc := t.desc.set dt.id d })
    (fun w d => w.withT c fun t => w.withT d fun dt => .ok (w.setT c { t with desc := V1.setAbsent t.desc dt.id d })) (.tAddDescendent c) := by
  refine ⟨rfl, fun w d _ => ?_, fun _ _ => rfl⟩
  rw [deref_some, ret_bind, deref_some, ret_bind, tenantAt_bind, V1.withT]
  cases hc : w.tobjs[c]? with
  | none => rfl
  | some t =>
    dsimp only
    rw [tenantAt_bind, V1.withT]
    cases w.tobjs[d]? with
    | none => rfl
    | some dt => exact absent_eq (x := fun m => w.setT c { t with desc := m }) (setT_same hc) rfl

theorem ns_steps (c : Nat) : Steps
    (fun x => (deref (some c)).bind fun c => (deref x).bind fun a => (tenantAt c).bind fun t => (nsAt a).bind fun no =>
      if (t.namespaces.get no.id).isSome then ret () else setTenant c { t with namespaces := t.namespaces.set no.id a })
    (fun w a => w.withT c fun t =>
      match w.nsobjs[a]? with
      | none => .panic
      | some no => .ok (w.setT c { t with namespaces := V1.setAbsent t.namespaces no.id a })) (.tAddNamespace c) := by
  refine ⟨rfl, fun w a _ => ?_, fun _ _ => rfl⟩
  rw [deref_some, ret_bind, deref_some, ret_bind, tenantAt_bind, V1.withT]
  cases hc : w.tobjs[c]? with
  | none => rfl
  | some t =>
    dsimp only
    rw [nsAt_bind]
    cases w.nsobjs[a]? with
    | none => rfl
    | some no => exact absent_eq (x := fun m => w.setT c { t with namespaces := m }) (setT_same hc) rfl

theorem role_steps (c : Nat) : Steps
    (fun x => (deref (some c)).bind fun c => (deref x).bind fun r => (tenantAt c).bind fun t => (roleAt r).bind fun ro =>
      if (t.roles.get ro.id).isSome then ret () else setTenant c { t with roles := t.roles.set ro.id r })
    (fun w a => w.withT c fun t =>
      match w.heap.roles[a]? with
      | none => .panic
      | some ro => .ok (w.setT c { t with roles := V1.setAbsent t.roles ro.id a })) (.tAddRole c) := by
  refine ⟨rfl, fun w a _ => ?_, fun _ _ => rfl⟩
  rw [deref_some, ret_bind, deref_some, ret_bind, tenantAt_bind, V1.withT]
  cases hc : w.tobjs[c]? with
  | none => rfl
  | some t =>
    dsimp only
    rw [roleAt_bind]
    cases w.heap.roles[a]? with
    | none => rfl
    | some ro => exact absent_eq (x := fun m => w.setT c { t with roles := m }) (setT_same hc) rfl

/-- The namespaces of a tenant are there. -/
theorem ns_there (inv : w.Inv) {c : Nat} {t : T1Obj} (hc : w.tobjs[c]? = some t) {n : Str} {a : Nat} (hn : t.namespaces.get n = some a) :
    ∃ no, w.nsobjs[a]? = some no ∧ no.id = n :=
  (inv.tobjs t (List.mem_of_getElem? hc)).namespaces _ (GoMap.get_some_mem hn)

theorem def_there (inv : w.Inv) {c : Nat} {t : T1Obj} (hc : w.tobjs[c]? = some t) {a : Nat} (hn : t.defNs = some a) :
    ∃ no, w.nsobjs[a]? = some no := by
  have ok := inv.tobjs t (List.mem_of_getElem? hc)
  obtain ⟨k, hk⟩ := ok.defNs a hn
  obtain ⟨no, h, _⟩ := ok.namespaces _ hk
  exact ⟨no, h⟩

theorem keepScope_eq {a : Nat} {no : NsObj} {s : Str} {obj : Nat} (h : w.nsobjs[a]? = some no) :
    keepScope a s obj w = (.ok (), w.setNs a { no with scopes := V1.setAbsent no.scopes s obj }) := by
  rw [keepScope, nsAt_bind, h]
  exact absent_eq (x := fun m => w.setNs a { no with scopes := m }) (setNs_same h) rfl

theorem scope_steps (c : Nat) : Steps
    (fun x => (deref (some c)).bind fun c => (deref x).bind fun s => (tenantAt c).bind fun t =>
      (if (t.scopes.get s.1).isSome then ret () else setTenant c { t with scopes := t.scopes.set s.1 s.2 }).bind fun _ =>
      (tenantAt c).bind fun t =>
      match t.defNs with
      | none => ret ()
      | some a => keepScope a s.1 s.2)
    (fun (w : V1) (s : Str × Nat) => w.withT c fun t =>
      let w := w.setT c { t with scopes := V1.setAbsent t.scopes s.1 s.2 }
      match t.defNs with
      | none => .ok w
      | some a =>
        match w.nsobjs[a]? with
        | none => .panic
        | some no => .ok (w.setNs a { no with scopes := V1.setAbsent no.scopes s.1 s.2 })) (.tAddScopes c) := by
  refine ⟨rfl, fun w s inv => ?_, fun _ _ => rfl⟩
  rw [deref_some, ret_bind, deref_some, ret_bind, tenantAt_bind, V1.withT]
  cases hc : w.tobjs[c]? with
  | none => rfl
  | some t =>
    dsimp only
    rw [bind_of (absent_eq (m := t.scopes) (x := fun m => w.setT c { t with scopes := m }) (setT_same hc) rfl), tenantAt_bind,
      show (w.setT c { t with scopes := V1.setAbsent t.scopes s.1 s.2 }).tobjs[c]? = some { t with scopes := V1.setAbsent t.scopes s.1 s.2 } from
        List.getElem?_set_self (RHeap.lt_of_get hc)]
    dsimp only
    cases hd : t.defNs with
    | none => rfl
    | some a =>
      obtain ⟨no, hno⟩ := def_there inv hc hd
      have hno' : (w.setT c { t with scopes := V1.setAbsent t.scopes s.1 s.2 }).nsobjs[a]? = some no := hno
      dsimp only
      rw [hd] at hno'
      rw [keepScope_eq hno', hno']
      rfl

theorem nsRole_steps (n : Nat) : Steps
    (fun x => (deref (some n)).bind fun n => (deref x).bind fun r => (nsAt n).bind fun no => (roleAt r).bind fun ro =>
      setNs n { no with roles := no.roles.set ro.id r })
    (fun w a =>
      match w.nsobjs[n]?, w.heap.roles[a]? with
      | some no, some ro => .ok (w.setNs n { no with roles := no.roles.set ro.id a })
      | _, _ => .panic) (.nsAddRoles n) := by
  refine ⟨rfl, fun w a _ => ?_, fun _ _ => rfl⟩
  rw [deref_some, ret_bind, deref_some, ret_bind, nsAt_bind]
  cases w.nsobjs[n]? with
  | none => rfl
  | some no =>
    dsimp only
    rw [roleAt_bind]
    cases w.heap.roles[a]? <;> rfl

theorem nsScope_steps (n : Nat) : Steps
    (fun x => (deref (some n)).bind fun n => (deref x).bind fun s => (nsAt n).bind fun no => setNs n { no with scopes := no.scopes.set s.1 s.2 })
    (fun (w : V1) (s : Str × Nat) =>
      match w.nsobjs[n]? with
      | some no => .ok (w.setNs n { no with scopes := no.scopes.set s.1 s.2 })
      | _ => .panic) (.nsAddScopes n) := by
  refine ⟨rfl, fun w a _ => ?_, fun _ _ => rfl⟩
  rw [deref_some, ret_bind, deref_some, ret_bind, nsAt_bind]
  cases w.nsobjs[n]? <;> rfl

theorem each_still {f : α → Rec Unit} {l : List α} (h : ∀ x ∈ l, (f x w).2 = w) : (RV.each f l w).2 = w := by
  induction l with
  | nil => rfl
  | cons x l ih =>
    have hx := h x (List.mem_cons_self ..)
    rw [RV.each, Rec.bind]
    cases hf : (f x w).1 with
    | ok a => dsimp only; rw [hx]; exact ih fun y hy => h y (List.mem_cons_of_mem _ hy)
    | panic => exact hx
    | diverge => exact hx

theorem Fine.still {x : Rec α} (h : (x w).2 = w) : Fine x w := by unfold Fine; rw [h]; exact .refl w

/-! ## Assignments -/

theorem Fine.assign {p r : Str} {c : Option Nat} {ns : Option Nat} {sc : Option Str} {m : List Bool} :
    Fine (addPrincipalRole p r c ns sc m) w := by
  cases c with
  | none => exact .refl w
  | some c => exact Fine.step (op := .addPrincipalRole p r c ns sc m) assign_eq

theorem Fine.managed {q : Option Nat} {k : T1Obj → Rec α} (h : ∀ t, Fine (k t) w) : Fine ((RV.managed q).bind k) w := by
  cases q with
  | none => exact .refl w
  | some c =>
    unfold Fine
    rw [managed_eq]
    cases w.tobjs[c]? with
    | none => exact .refl w
    | some t =>
      dsimp only
      split
      · exact h t
      · exact .refl w

theorem Fine.tAssign {p r : Str} {c d : Option Nat} {ns : Option Nat} {sc : Option Str} {m : List Bool} :
    Fine (tAddPrincipalRole c p r d ns sc m) w := Fine.managed fun _ => Fine.assign

theorem Fine.withDefault {c : Nat} {p r : Str} {sc : Option Str} : Fine (withDefault c p r sc) w := by
  refine Fine.bind Fine.tAssign fun _ _ => Fine.tenantAt fun t _ => ?_
  cases t.defNs with
  | none => exact .refl _
  | some a => exact Fine.tAssign

theorem Fine.addPrincipal {q : Option Nat} {p : Str} {rs : List Str} (inv : w.Inv) : Fine (tAddPrincipal q p rs) w := by
  refine Fine.each inv fun r _ w _ => Fine.deref fun c _ => Fine.tenantAt fun t _ => ?_
  split
  · exact Fine.withDefault
  · exact .refl w

theorem Fine.inNamespace {o : Ord} {site : List Val} {q : Option Nat} {p n : Str} {rs : List Str} (inv : w.Inv) :
    Fine (tAddPrincipalInNamespace o site q p n rs) w := by
  refine Fine.deref fun c _ => Fine.tenantAt fun t _ => ?_
  cases t.namespaces.get n with
  | none => exact .refl w
  | some a =>
    dsimp only
    split
    · refine Fine.each inv fun r _ w _ => Fine.tenantAt fun t _ => ?_
      cases t.roles.get r with
      | none => exact .refl w
      | some ra => exact Fine.bind (.refl w) fun _ _ => Fine.tAssign
    · refine Fine.managed fun t => Fine.look fun l _ => Fine.bind (Fine.each inv fun x _ w _ => ?_) fun _ _ => Fine.tAssign
      split
      · exact Fine.tAssign
      · exact .refl w

theorem Fine.assignScopes {o : Ord} {site : List Val} {q : Option Nat} {p : Str} {ss : List Str} (inv : w.Inv) :
    Fine (tAssignScopesToPrincipal o site q p ss) w := by
  refine Fine.deref fun c _ => Fine.managed fun t => Fine.look fun l _ => ?_
  split
  · exact .refl w
  · refine Fine.each inv fun s _ w iw => Fine.tenantAt fun t _ => ?_
    split
    · exact Fine.bind (Fine.each iw fun x _ w _ => Fine.withDefault) fun _ _ => Fine.tAssign
    · exact .refl w

theorem Fine.assignWithRole {o : Ord} {site : List Val} {q : Option Nat} {p r : Str} {ss : List Str} (inv : w.Inv) :
    Fine (tAssignScopesWithRole o site q p r ss) w := by
  unfold tAssignScopesWithRole
  split
  · exact .refl w
  refine Fine.deref fun c _ => Fine.managed fun t => Fine.look fun l _ => ?_
  split
  · exact .refl w
  split
  · refine Fine.each inv fun s _ w iw => Fine.tenantAt fun t _ => ?_
    split
    · exact Fine.withDefault
    · exact .refl w
  · exact .refl w

theorem Fine.setDefault {c : Option Nat} {n : Str} : Fine (tSetDefaultNamespace c n) w := by
  cases c with
  | none => exact .refl w
  | some c => exact Fine.step (op := .tSetDefaultNamespace c n) setDefault_eq

theorem Fine.keepScope {a : Nat} {s : Str} {obj : Nat} : Fine (keepScope a s obj) w := by
  unfold Fine
  cases hn : w.nsobjs[a]? with
  | none => rw [RV.keepScope, nsAt_bind, hn]; exact .refl w
  | some no =>
    rw [keepScope_eq hn, V1.setAbsent]
    cases no.scopes.get s with
    | some x => dsimp only; rw [setNs_same (no := { no with scopes := no.scopes }) hn]; exact .refl w
    | none =>
      refine AsIf.one (op := .nsAddScopes a [(s, obj)]) ?_
      rw [V1Op.apply, V1.nsAddScopes, loop_one, hn]

theorem Fine.scopesTo {q : Option Nat} {n : Str} {ss : List Str} : Fine (tAddScopesToNamespace q n ss) w := by
  induction ss generalizing w with
  | nil => exact .refl w
  | cons s ss ih =>
    refine Fine.deref fun c _ => Fine.tenantAt fun t _ => ?_
    cases t.scopes.get s with
    | none => exact .refl w
    | some obj =>
      dsimp only
      cases t.namespaces.get n with
      | none => exact ih
      | some a => exact Fine.bind Fine.keepScope fun _ _ => Fine.bind Fine.tAssign fun _ _ => ih

/-- One role for a namespace. -/
theorem keepRole_eq {a : Nat} {no : NsObj} {r : Str} {obj : Nat} (h : w.nsobjs[a]? = some no) :
    (if (no.roles.get r).isSome then ret () else RV.setNs a { no with roles := no.roles.set r obj }) w =
      (.ok (), w.setNs a { no with roles := V1.setAbsent no.roles r obj }) :=
  absent_eq (x := fun m => w.setNs a { no with roles := m }) (setNs_same h) rfl

theorem Fine.rolesTo {q : Option Nat} {n : Str} {rs : List Str} : Fine (tAddRolesToNamespace q n rs) w := by
  induction rs generalizing w with
  | nil => exact .refl w
  | cons r rs ih =>
    refine Fine.deref fun c _ => Fine.tenantAt fun t hc => ?_
    cases hr : t.roles.get r with
    | none => exact .refl w
    | some obj =>
      dsimp only
      cases hn : t.namespaces.get n with
      | none => exact .refl w
      | some a =>
        unfold Fine
        dsimp only
        rw [nsAt_bind]
        cases ha : w.nsobjs[a]? with
        | none => exact .refl w
        | some no =>
          dsimp only
          rw [bind_of (keepRole_eq ha)]
          refine AsIf.trans (AsIf.one (op := .tAddRolesToNamespace c n [r]) ?_) ih
          rw [V1Op.apply, V1.tAddRolesToNamespace, V1.withT, hc]
          dsimp only
          rw [hr]
          dsimp only
          rw [hn]
          dsimp only
          rw [ha]
          rfl

theorem Fine.go (c : NCall) (inv : w.Inv) : Fine c.go w := by
  cases c with
  | newRole id => exact AsIf.one (op := .role (.newRole id)) rfl
  | newGroup id => exact AsIf.one (op := .role (.newGroup id)) rfl
  | newTenant id => exact AsIf.one (op := .newTenant id) rfl
  | newNamespace id => exact AsIf.one (op := .newNamespace id) rfl
  | addTenants l =>
    refine Fine.each inv fun q _ w _ => ?_
    cases q with
    | none => exact .refl w
    | some a => exact Fine.whole (op := .addTenant a) (addTenant_eq a) (by rw [V1Op.apply]; cases w.addTenant a <;> rfl)
  | addNamespaces l =>
    refine Fine.each inv fun q _ w _ => ?_
    cases q with
    | none => exact .refl w
    | some a => exact Fine.whole (op := .addNamespace a) (addNamespace_eq a) (by rw [V1Op.apply]; cases w.addNamespace a <;> rfl)
  | addScopes l =>
    refine Fine.each inv fun q _ w _ => ?_
    cases q with
    | none => exact .refl w
    | some x => exact AsIf.one (op := .addScope x.1 x.2) (by rw [addScope_eq]; rfl)
  | addPrincipals l =>
    refine Fine.each inv fun q _ w _ => ?_
    cases q with
    | none => exact .refl w
    | some x => exact AsIf.one (op := .addPrincipal x.1 x.2) (by rw [addPrincipal_eq]; rfl)
  | addAttributes l =>
    refine Fine.each inv fun q _ w _ => ?_
    cases q with
    | none => exact .refl w
    | some x => exact AsIf.one (op := .addAttribute x.1 x.2) (by rw [addAttribute_eq]; rfl)
  | addRoles l =>
    refine Fine.each inv fun q _ w _ => ?_
    cases q with
    | none => exact .refl w
    | some a => exact Fine.whole (op := .addRole a) (addRole_eq a) (by rw [V1Op.apply]; cases w.addRole a <;> rfl)
  | addAttributeGroups l =>
    refine Fine.each inv fun q _ w _ => ?_
    cases q with
    | none => exact .refl w
    | some a => exact Fine.whole (op := .addAttributeGroup a) (addAttributeGroup_eq a) (by rw [V1Op.apply]; cases w.addAttributeGroup a <;> rfl)
  | roleAddDescendent r ds => exact Fine.roleDescendant.drop
  | roleAddPermission r g as => exact (Fine.rolePermission inv).drop
  | roleAddGroup r ga => exact Fine.roleGroup.drop
  | roleLock r b => exact Fine.roleLock
  | groupAddAttributes ga as => exact Fine.groupAttributes inv
  | addPermissionsToRole r g as => exact (Fine.toRole inv).drop
  | addPrincipalRole p r c ns sc m => exact Fine.assign
  | tAddPrincipalRole c p r d ns sc m => exact Fine.tAssign
  | tAddPrincipal c p rs => exact Fine.addPrincipal inv
  | tAddPrincipalInNamespace o site c p n rs => exact Fine.inNamespace inv
  | tAssignScopesToPrincipal o site c p ss => exact Fine.assignScopes inv
  | tAssignScopesWithRole o site c p r ss => exact Fine.assignWithRole inv
  | tAddDescendent c ds =>
    cases c with
    | none => exact .still (each_still fun _ _ => rfl)
    | some c => exact (desc_steps c).fine inv
  | tSetDefaultNamespace c n => exact Fine.setDefault
  | tAddNamespace c ns =>
    cases c with
    | none => exact .still (each_still fun _ _ => rfl)
    | some c => exact (ns_steps c).fine inv
  | tAddRole c rs =>
    cases c with
    | none => exact .still (each_still fun _ _ => rfl)
    | some c => exact (role_steps c).fine inv
  | tAddScopes c ss =>
    cases c with
    | none => exact .still (each_still fun _ _ => rfl)
    | some c => exact (scope_steps c).fine inv
  | tAddScopesToNamespace c n ss => exact Fine.scopesTo
  | tAddRolesToNamespace c n rs => exact Fine.rolesTo
  | nsAddRoles n rs =>
    cases n with
    | none => exact .still (each_still fun _ _ => rfl)
    | some n => exact (nsRole_steps n).fine inv
  | nsAddScopes n ss =>
    cases n with
    | none => exact .still (each_still fun _ _ => rfl)
    | some n => exact (nsScope_steps n).fine inv
  | authorize o fuel site p opts => exact Fine.drop (Fine.look fun _ _ => .refl w)

/-! ## The sequential description -/

/-- A call of the sequential description, with pointers. -/
def ofV1Op : V1Op → NCall
  | .role (.newRole id) => .newRole id
  | .role (.newGroup id) => .newGroup id
  | .role (.addDesc r ds) => .roleAddDescendent (some r) (ds.map some)
  | .role (.addPerm r g as) => .roleAddPermission (some r) g (as.map some)
  | .role (.addGroup r ga) => .roleAddGroup (some r) (some ga)
  | .role (.addAttrs ga as) => .groupAddAttributes (some ga) (as.map some)
  | .role (.lock r b) => .roleLock (some r) b
  | .newTenant id => .newTenant id
  | .newNamespace id => .newNamespace id
  | .addTenant a => .addTenants [some a]
  | .addNamespace a => .addNamespaces [some a]
  | .addScope id obj => .addScopes [some (id, obj)]
  | .addPrincipal id obj => .addPrincipals [some (id, obj)]
  | .addRole r => .addRoles [some r]
  | .addAttribute a obj => .addAttributes [some (a, obj)]
  | .addAttributeGroup ga => .addAttributeGroups [some ga]
  | .addPermissionsToRole r g as => .addPermissionsToRole r g (as.map some)
  | .addPrincipalRole p r c ns sc m => .addPrincipalRole p r (some c) ns sc m
  | .tAddDescendent c ds => .tAddDescendent (some c) (ds.map some)
  | .tSetDefaultNamespace c n => .tSetDefaultNamespace (some c) n
  | .tAddNamespace c ns => .tAddNamespace (some c) (ns.map some)
  | .tAddRole c rs => .tAddRole (some c) (rs.map some)
  | .tAddScopes c ss => .tAddScopes (some c) (ss.map some)
  | .tAddScopesToNamespace c n ss => .tAddScopesToNamespace (some c) n ss
  | .tAddRolesToNamespace c n rs => .tAddRolesToNamespace (some c) n rs
  | .tAddPrincipalRole c p r d ns sc m => .tAddPrincipalRole (some c) p r (some d) ns sc m
  | .tAddPrincipal c p rs => .tAddPrincipal (some c) p rs
  | .tAddPrincipalInNamespace o site c p n rs => .tAddPrincipalInNamespace o site (some c) p n rs
  | .tAssignScopesToPrincipal o site c p ss => .tAssignScopesToPrincipal o site (some c) p ss
  | .tAssignScopesWithRole o site c p r ss => .tAssignScopesWithRole o site (some c) p r ss
  | .nsAddRoles n rs => .nsAddRoles (some n) (rs.map some)
  | .nsAddScopes n ss => .nsAddScopes (some n) (ss.map some)

/-- The group or the tenant a call is given is there. -/
def There (w : V1) : V1Op → Prop
  | .role (.addGroup _ ga) => ga < w.heap.groups.length
  | .role (.addAttrs ga _) => ga < w.heap.groups.length
  | .tAddPrincipal c _ _ => c < w.tobjs.length
  | _ => True

theorem derefAll_some {l : List α} : derefAll (l.map some) = .ok l := by
  induction l with
  | nil => rfl
  | cons a l ih => rw [List.map_cons, derefAll, ih]; rfl

theorem associated_some {g : GroupObj} {l : List Attr} : associated g (l.map some) = .ok (RHeap.allAssociated g l) := by
  induction l with
  | nil => rfl
  | cons a l ih => rw [List.map_cons, associated, RHeap.allAssociated, ih]; split <;> rfl

theorem descLoop_agrees {r : Nat} {ds : List Nat} :
    Agrees (RV.each (fun q => (deref q).bind fun d => (roleAt d).bind fun dro => (roleAt r).bind fun ro =>
      if (ro.desc.get dro.id).isSome then ret ()
      else setRole r { ro with desc := ro.desc.set dro.id d }) (ds.map some) w)
      ((RHeap.addDescendant.loop r w.heap ds).map fun h => ((), { w with heap := h })) := by
  induction ds generalizing w with
  | nil => rfl
  | cons d ds ih =>
    rw [List.map_cons, RV.each, RHeap.addDescendant.loop, deref_some, ret_bind, Rec.bind, roleAt_bind]
    cases hd : w.heap.roles[d]? with
    | none => rfl
    | some dro =>
      dsimp only
      rw [roleAt_bind]
      cases hr : w.heap.roles[r]? with
      | none => rfl
      | some ro =>
        dsimp only
        by_cases h : (ro.desc.get dro.id).isSome
        · rw [if_pos h, if_pos h]; exact ih
        · rw [if_neg h, if_neg h]
          exact ih (w := { w with heap := { w.heap with roles := w.heap.roles.set r { ro with desc := ro.desc.set dro.id d } } })

theorem roleDesc_agrees {r : Nat} {ds : List Nat} :
    Agrees (roleAddDescendent (some r) (ds.map some) w) ((w.heap.addDescendant r ds).map fun x => (x.1, { w with heap := x.2 })) := by
  rw [roleAddDescendent, RHeap.addDescendant, deref_some, ret_bind, roleAt_bind]
  cases hr : w.heap.roles[r]? with
  | none => rfl
  | some ro =>
    dsimp only
    by_cases h : ro.lock
    · rw [if_pos h, if_pos h]; rfl
    · rw [if_neg h, if_neg h]
      have hl := descLoop_agrees (w := w) (r := r) (ds := ds)
      have e : Out.map (fun x => (x.1, { w with heap := x.2 })) (Out.map (fun h => ((none : Option Err), h)) (RHeap.addDescendant.loop r w.heap ds)) =
          (Out.map (fun h => ((), { w with heap := h })) (RHeap.addDescendant.loop r w.heap ds)).bind fun y => .ok (none, y.2) := by
        cases RHeap.addDescendant.loop r w.heap ds <;> rfl
      rw [e]
      exact Agrees.bind hl fun _ _ _ _ => rfl

theorem Out.map_map {γ : Type} {x : Out α} {f : α → β} {g : β → γ} : (x.map f).map g = x.map fun a => g (f a) := by
  cases x <;> rfl

/-- A group is changed. -/
def putGroup (w : V1) (ga : Nat) (g : GroupObj) : V1 := { w with heap := { w.heap with groups := w.heap.groups.set ga g } }

theorem putGroup_same {ga : Nat} {g : GroupObj} (h : w.heap.groups[ga]? = some g) : putGroup w ga g = w := by
  unfold putGroup; rw [setList_same h]

theorem putGroup_get {ga : Nat} {g g' : GroupObj} (h : w.heap.groups[ga]? = some g) : (putGroup w ga g').heap.groups[ga]? = some g' :=
  List.getElem?_set_self (RHeap.lt_of_get h)

theorem putGroup_put {ga : Nat} {g g' : GroupObj} : putGroup (putGroup w ga g) ga g' = putGroup w ga g' := by
  unfold putGroup; simp only [List.set_set]

theorem keepOne {ga : Nat} {g : GroupObj} {a : Attr} (h : w.heap.groups[ga]? = some g) :
    keepAttr ga (some a) w = (.ok (), putGroup w ga { g with perms := if (g.perms.get a.toStr).isSome then g.perms else g.perms.set a.toStr a }) := by
  rw [keepAttr, deref_some, ret_bind, groupAt_bind, h]
  dsimp only
  by_cases hc : (g.perms.get a.toStr).isSome
  · rw [if_pos hc, if_pos hc, putGroup_same (g := { g with perms := g.perms }) h]; rfl
  · rw [if_neg hc, if_neg hc]; rfl

theorem keep_eq {ga : Nat} {g : GroupObj} {as : List Attr} (h : w.heap.groups[ga]? = some g) :
    RV.each (keepAttr ga) (as.map some) w = (.ok (), putGroup w ga { g with perms := RHeap.addAttrsKeep g.perms as }) := by
  induction as generalizing w g with
  | nil => rw [show putGroup w ga { g with perms := RHeap.addAttrsKeep g.perms [] } = w from putGroup_same h]; rfl
  | cons a as ih =>
    rw [List.map_cons, RV.each, bind_of (keepOne h), ih (putGroup_get h), putGroup_put, RHeap.addAttrsKeep]
    split <;> rfl

theorem perm_agrees (inv : w.Inv) {r : Nat} {group : Str} {as : List Attr} :
    Agrees (roleAddPermission (some r) group (as.map some) w) ((w.heap.addPermission r group as).map fun x => (x.1, { w with heap := x.2 })) := by
  rw [roleAddPermission, RHeap.addPermission, deref_some, ret_bind, roleAt_bind]
  cases hr : w.heap.roles[r]? with
  | none => rfl
  | some ro =>
    dsimp only
    by_cases h : ro.lock
    · rw [if_pos h, if_pos h]; rfl
    · rw [if_neg h, if_neg h]
      cases hg : ro.perms.get group with
      | none =>
        dsimp only
        rw [derefAll_some]
        rfl
      | some ga =>
        dsimp only
        cases hga : w.heap.groups[ga]? with
        | none =>
          have := inv.heap.perms ro (List.mem_of_getElem? hr) _ (GoMap.get_some_mem hg)
          rw [List.getElem?_eq_getElem this] at hga
          cases hga
        | some g =>
          rw [Rec.bind, keep_eq hga]
          dsimp only
          rw [roleAt_bind, show (putGroup w ga { g with perms := RHeap.addAttrsKeep g.perms as }).heap.roles[r]? = some ro from hr]
          rfl

theorem attrs_eq {ga : Nat} {g : GroupObj} {as : List Attr} (h : w.heap.groups[ga]? = some g) :
    RV.groupAddAttributes (some ga) (as.map some) w =
      (.ok (), putGroup w ga { g with perms := as.foldl (fun m a => m.set a.toStr a) g.perms }) := by
  unfold RV.groupAddAttributes
  induction as generalizing w g with
  | nil => rw [show putGroup w ga { g with perms := List.foldl (fun m a => m.set a.toStr a) g.perms [] } = w from putGroup_same h]; rfl
  | cons a as ih =>
    rw [List.map_cons, RV.each, bind_of (w' := putGroup w ga { g with perms := g.perms.set a.toStr a }) (by
      rw [deref_some, ret_bind, deref_some, ret_bind, groupAt_bind, h]; rfl), ih (putGroup_get h), putGroup_put]
    rfl

theorem toRole_agrees (inv : w.Inv) {r group : Str} {as : List Attr} :
    Agrees (RV.addPermissionsToRole r group (as.map some) w)
      ((w.heap.addPermissionsToRole w.roles w.attrGroups r group as).map fun x => (x.1, { w with heap := x.2 })) := by
  rw [RV.addPermissionsToRole, RHeap.addPermissionsToRole, read_bind]
  cases w.roles.get r with
  | none => rfl
  | some ra =>
    dsimp only
    rw [read_bind]
    cases w.attrGroups.get group with
    | none => rfl
    | some ga =>
      dsimp only
      rw [groupAt_bind]
      cases w.heap.groups[ga]? with
      | none => rfl
      | some g =>
        dsimp only
        rw [look_bind, associated_some]
        dsimp only
        by_cases h : RHeap.allAssociated g as
        · rw [if_pos h, if_pos h]; exact perm_agrees inv
        · rw [if_neg h, if_neg h]; rfl

theorem tAssign_tobjs {c d : Nat} {p r : Str} {ns : Option Nat} {sc : Option Str} {m : List Bool} (h : w.tAddPrincipalRole c p r d ns sc m = .ok w') :
    w'.tobjs = w.tobjs := by
  obtain ⟨t, _, h⟩ := V1.withT_eq_ok.1 h
  split at h
  · rw [V1.addPrincipalRole] at h
    split at h
    · cases h
    · obtain ⟨n, _, rfl⟩ := Out.map_eq_ok.1 h; rfl
  · cases h

theorem default_agrees {c : Nat} {t : T1Obj} (hc : w.tobjs[c]? = some t) {p r : Str} {sc : Option Str} :
    Agrees (withDefault c p r sc w) (unit (w.addWithDefault c t p r sc)) := by
  rw [withDefault, V1.addWithDefault, unit_bind]
  refine Agrees.bind (by rw [tAssign_eq]; exact .whole _) fun _ w1 _ hs => ?_
  have h1 : w1.tobjs = w.tobjs := by
    cases hg : w.tAddPrincipalRole c p r c none sc [] with
    | ok y => rw [hg] at hs; cases hs; exact tAssign_tobjs hg
    | panic => rw [hg] at hs; cases hs
    | diverge => rw [hg] at hs; cases hs
  rw [tenantAt_bind, h1, hc]
  dsimp only
  cases t.defNs with
  | none => rfl
  | some a => dsimp only; rw [tAssign_eq]; exact .whole _

theorem default_tobjs {c : Nat} {t : T1Obj} {p r : Str} {sc : Option Str} (h : w.addWithDefault c t p r sc = .ok w') : w'.tobjs = w.tobjs := by
  rw [V1.addWithDefault, Out.bind_eq_ok] at h
  obtain ⟨w1, h1, h⟩ := h
  split at h
  · cases h; exact tAssign_tobjs h1
  · rw [tAssign_tobjs h, tAssign_tobjs h1]

theorem Agrees.loop {P : V1 → Prop} {f : α → Rec Unit} {g : V1 → α → Out V1} (hf : ∀ w x, P w → Agrees (f x w) (unit (g w x)))
    (hP : ∀ w x w', P w → g w x = .ok w' → P w') {l : List α} (h : P w) : Agrees (RV.each f l w) (unit (Out.loop g w l)) := by
  induction l generalizing w with
  | nil => rfl
  | cons x l ih =>
    rw [RV.each, Out.loop, unit_bind]
    refine Agrees.bind (hf w x h) fun _ w1 _ hs => ih (hP w x w1 h ?_)
    cases hg : g w x with
    | ok y => rw [hg] at hs; cases hs; rfl
    | panic => rw [hg] at hs; cases hs
    | diverge => rw [hg] at hs; cases hs

/-- The tenant stays as it is. -/
theorem loop_tobjs {g : V1 → α → Out V1} (hg : ∀ w x w', g w x = .ok w' → w'.tobjs = w.tobjs) {l : List α} (h : Out.loop g w l = .ok w') : w'.tobjs = w.tobjs := by
  induction l generalizing w with
  | nil => cases h; rfl
  | cons x l ih =>
    rw [Out.loop, Out.bind_eq_ok] at h
    obtain ⟨w1, h1, h⟩ := h
    rw [ih h, hg _ _ _ h1]

theorem principal_agrees {c : Nat} (hc : c < w.tobjs.length) {p : Str} {rs : List Str} :
    Agrees (tAddPrincipal (some c) p rs w) (unit (w.tAddPrincipal c p rs)) := by
  rw [V1.tAddPrincipal, V1.withT, List.getElem?_eq_getElem hc]
  dsimp only
  generalize ht : w.tobjs[c] = t
  refine Agrees.loop (P := fun v => v.tobjs[c]? = some t) (fun v r hv => ?_) (fun v r v' hv h => ?_) (by rw [List.getElem?_eq_getElem hc, ht])
  · rw [deref_some, ret_bind, tenantAt_bind, hv]
    dsimp only
    split
    · exact default_agrees hv
    · rfl
  · split at h
    · rw [default_tobjs h]; exact hv
    · cases h; exact hv

theorem inNamespace_agrees {o : Ord} {site : List Val} {c : Nat} {p n : Str} {rs : List Str} :
    Agrees (tAddPrincipalInNamespace o site (some c) p n rs w) (unit (w.tAddPrincipalInNamespace o site c p n rs)) := by
  rw [tAddPrincipalInNamespace, V1.tAddPrincipalInNamespace, V1.withT, deref_some, ret_bind, tenantAt_bind]
  cases ht : w.tobjs[c]? with
  | none => rfl
  | some t =>
    dsimp only
    cases t.namespaces.get n with
    | none => rfl
    | some a =>
      dsimp only
      by_cases hl : 0 < rs.length
      · rw [if_pos hl, if_pos hl]
        refine Agrees.loop (P := fun v => v.tobjs[c]? = some t) (fun v r hv => ?_) (fun v r v' hv h => ?_) ht
        · rw [tenantAt_bind, hv]
          dsimp only
          cases t.roles.get r with
          | none => rfl
          | some ra =>
            dsimp only
            rw [roleAt_bind]
            cases v.heap.roles[ra]? with
            | none => rfl
            | some ro => dsimp only; rw [tAssign_eq]; exact .whole _
        · split at h
          · cases h; exact hv
          · split at h
            · cases h
            · rw [tAssign_tobjs h]; exact hv
      · rw [if_neg hl, if_neg hl, managed_eq, ht]
        dsimp only
        by_cases hm : t.managed
        · rw [if_pos hm, if_pos hm, look_bind]
          cases w.tenantRoles o site t.id with
          | panic => rfl
          | diverge => rfl
          | ok l =>
            dsimp only [Out.bind_ok]
            rw [unit_bind]
            refine Agrees.bind (Agrees.loop (P := fun _ => True) (fun v x _ => ?_) (fun _ _ _ _ _ => trivial) trivial) fun _ v _ _ => by
              rw [tAssign_eq]; exact .whole _
            split
            · rw [tAssign_eq]; exact .whole _
            · rfl
        · rw [if_neg hm, if_neg hm]; rfl

theorem assignScopes_agrees {o : Ord} {site : List Val} {c : Nat} {p : Str} {ss : List Str} :
    Agrees (tAssignScopesToPrincipal o site (some c) p ss w) (unit (w.tAssignScopesToPrincipal o site c p ss)) := by
  rw [tAssignScopesToPrincipal, V1.tAssignScopesToPrincipal, V1.withT, deref_some, ret_bind, managed_eq]
  cases ht : w.tobjs[c]? with
  | none => rfl
  | some t =>
    dsimp only
    by_cases hm : t.managed
    · rw [if_pos hm, if_pos hm, look_bind]
      cases w.principalRoles o site t.id p with
      | panic => rfl
      | diverge => rfl
      | ok l =>
        dsimp only [Out.bind_ok]
        by_cases hl : l = []
        · rw [if_pos hl, if_pos hl]; rfl
        rw [if_neg hl, if_neg hl]
        refine Agrees.loop (P := fun v => v.tobjs[c]? = some t) (fun v s hv => ?_) (fun v s v' hv h => ?_) ht
        · rw [tenantAt_bind, hv]
          dsimp only
          split
          · rw [unit_bind]
            refine Agrees.bind (Agrees.loop (P := fun v => v.tobjs[c]? = some t) (fun v x hv => default_agrees hv)
              (fun v x v' hv h => by rw [default_tobjs h]; exact hv) hv) fun _ v _ _ => by rw [tAssign_eq]; exact .whole _
          · rfl
        · split at h
          · rw [Out.bind_eq_ok] at h
            obtain ⟨w1, h1, h⟩ := h
            rw [tAssign_tobjs h, loop_tobjs (fun _ _ _ h => default_tobjs h) h1]; exact hv
          · cases h; exact hv
    · rw [if_neg hm, if_neg hm]; rfl

theorem assignWithRole_agrees {o : Ord} {site : List Val} {c : Nat} {p r : Str} {ss : List Str} :
    Agrees (tAssignScopesWithRole o site (some c) p r ss w) (unit (w.tAssignScopesWithRole o site c p r ss)) := by
  rw [tAssignScopesWithRole, V1.tAssignScopesWithRole]
  by_cases h0 : ss.length = 0
  · rw [if_pos h0, if_pos h0]; rfl
  rw [if_neg h0, if_neg h0, V1.withT, deref_some, ret_bind, managed_eq]
  cases ht : w.tobjs[c]? with
  | none => rfl
  | some t =>
    dsimp only
    by_cases hm : t.managed
    · rw [if_pos hm, if_pos hm, look_bind]
      cases w.principalRoles o site t.id p with
      | panic => rfl
      | diverge => rfl
      | ok l =>
        dsimp only [Out.bind_ok]
        by_cases hl : l = []
        · rw [if_pos hl, if_pos hl]; rfl
        rw [if_neg hl, if_neg hl]
        by_cases hr : (t.roles.get r).isSome
        · rw [if_pos hr, if_pos hr]
          refine Agrees.loop (P := fun v => v.tobjs[c]? = some t) (fun v s hv => ?_) (fun v s v' hv h => ?_) ht
          · rw [tenantAt_bind, hv]
            dsimp only
            split
            · exact default_agrees hv
            · rfl
          · split at h
            · rw [default_tobjs h]; exact hv
            · cases h; exact hv
        · rw [if_neg hr, if_neg hr]; rfl
    · rw [if_neg hm, if_neg hm]; rfl

theorem scopesTo_agrees {c : Nat} {n : Str} {ss : List Str} :
    Agrees (tAddScopesToNamespace (some c) n ss w) (unit (w.tAddScopesToNamespace c n ss)) := by
  induction ss generalizing w with
  | nil => rfl
  | cons s ss ih =>
    rw [tAddScopesToNamespace, V1.tAddScopesToNamespace, V1.withT, deref_some, ret_bind, tenantAt_bind]
    cases w.tobjs[c]? with
    | none => rfl
    | some t =>
      dsimp only
      cases t.scopes.get s with
      | none => rfl
      | some obj =>
        dsimp only
        cases t.namespaces.get n with
        | none => exact ih
        | some a =>
          dsimp only
          cases hn : w.nsobjs[a]? with
          | none => rw [Rec.bind, keepScope, nsAt_bind, hn]; rfl
          | some no =>
            rw [bind_of (keepScope_eq hn)]
            dsimp only
            rw [unit_bind]
            exact Agrees.bind (by rw [tAssign_eq]; exact .whole _) fun _ v _ _ => ih

theorem rolesTo_agrees {c : Nat} {n : Str} {rs : List Str} :
    Agrees (tAddRolesToNamespace (some c) n rs w) (unit (w.tAddRolesToNamespace c n rs)) := by
  induction rs generalizing w with
  | nil => rfl
  | cons r rs ih =>
    rw [tAddRolesToNamespace, V1.tAddRolesToNamespace, V1.withT, deref_some, ret_bind, tenantAt_bind]
    cases w.tobjs[c]? with
    | none => rfl
    | some t =>
      dsimp only
      cases t.roles.get r with
      | none => rfl
      | some obj =>
        dsimp only
        cases t.namespaces.get n with
        | none => rfl
        | some a =>
          dsimp only
          rw [nsAt_bind]
          cases hn : w.nsobjs[a]? with
          | none => rfl
          | some no =>
            dsimp only
            rw [bind_of (keepRole_eq hn)]
            exact ih

/-- A call of the sequential description and the call with pointers end alike, and leave the same when they return. -/
theorem go_agrees {op : V1Op} (inv : w.Inv) (hg : There w op) : Agrees ((ofV1Op op).go w) (unit (op.apply w)) := by
  unfold unit
  cases op with
  | role op =>
    cases op with
    | newRole id => rfl
    | newGroup id => rfl
    | addDesc r ds =>
      have h := (roleDesc_agrees (w := w) (r := r) (ds := ds)).drop
      rw [V1Op.apply, RoleOp.apply]
      simp only [Out.map_map] at h ⊢
      exact h
    | addPerm r g as =>
      have h := (perm_agrees inv (r := r) (group := g) (as := as)).drop
      rw [V1Op.apply, RoleOp.apply]
      simp only [Out.map_map] at h ⊢
      exact h
    | addGroup r ga =>
      have h := (show Agrees _ _ from addGroup_eq (w := w) r ga hg ▸ Agrees.whole _).drop
      rw [V1Op.apply, RoleOp.apply]
      simp only [Out.map_map] at h ⊢
      exact h
    | addAttrs ga as =>
      rw [V1Op.apply, RoleOp.apply, RHeap.groupAddAttributes, List.getElem?_eq_getElem hg]
      exact attrs_eq (List.getElem?_eq_getElem hg)
    | lock r b =>
      show Agrees (roleLock (some r) b w) _
      rw [lock_eq, V1Op.apply, RoleOp.apply, Out.map_map]
      exact .whole _
  | newTenant id => rfl
  | newNamespace id => rfl
  | addTenant a =>
    show Agrees (RV.each addTenant [some a] w) _
    rw [each_one, addTenant_eq, V1Op.apply, Out.map_map]
    exact .whole _
  | addNamespace a =>
    show Agrees (RV.each addNamespace [some a] w) _
    rw [each_one, addNamespace_eq, V1Op.apply, Out.map_map]
    exact .whole _
  | addScope id obj => show Agrees (RV.each addScope _ w) _; rw [each_one, addScope_eq]; rfl
  | addPrincipal id obj => show Agrees (RV.each addPrincipal _ w) _; rw [each_one, addPrincipal_eq]; rfl
  | addRole r =>
    show Agrees (RV.each addRole [some r] w) _
    rw [each_one, addRole_eq, V1Op.apply, Out.map_map]
    exact .whole _
  | addAttribute a obj => show Agrees (RV.each addAttribute _ w) _; rw [each_one, addAttribute_eq]; rfl
  | addAttributeGroup ga =>
    show Agrees (RV.each addAttributeGroup [some ga] w) _
    rw [each_one, addAttributeGroup_eq, V1Op.apply, Out.map_map]
    exact .whole _
  | addPermissionsToRole r g as =>
    have h := (toRole_agrees inv (r := r) (group := g) (as := as)).drop
    rw [V1Op.apply]
    simp only [Out.map_map] at h ⊢
    exact h
  | addPrincipalRole p r c ns sc m => show Agrees (addPrincipalRole _ _ _ _ _ _ w) _; rw [assign_eq]; exact .whole _
  | tAddDescendent c ds => exact (desc_steps c).agrees inv
  | tSetDefaultNamespace c n => show Agrees (tSetDefaultNamespace _ _ w) _; rw [setDefault_eq]; exact .whole _
  | tAddNamespace c ns => exact (ns_steps c).agrees inv
  | tAddRole c rs => exact (role_steps c).agrees inv
  | tAddScopes c ss => exact (scope_steps c).agrees inv
  | tAddScopesToNamespace c n ss => exact scopesTo_agrees
  | tAddRolesToNamespace c n rs => exact rolesTo_agrees
  | tAddPrincipalRole c p r d ns sc m => show Agrees (tAddPrincipalRole _ _ _ _ _ _ _ w) _; rw [tAssign_eq]; exact .whole _
  | tAddPrincipal c p rs => exact principal_agrees hg
  | tAddPrincipalInNamespace o site c p n rs => exact inNamespace_agrees
  | tAssignScopesToPrincipal o site c p ss => exact assignScopes_agrees
  | tAssignScopesWithRole o site c p r ss => exact assignWithRole_agrees
  | nsAddRoles n rs => exact (nsRole_steps n).agrees inv
  | nsAddScopes n ss => exact (nsScope_steps n).agrees inv

/-! ## C120 -/

/-- C120. Whatever is called, with whatever nil pointers, and however often a panic is recovered from: the manager is as calls that
returned would have left it, and its representation is sound. -/
theorem C120_recovered {cs : List NCall} (inv : w.Inv) (h : runAll w cs = some w') : (∃ ops, V1Op.run w ops = .ok w') ∧ w'.Inv := by
  induction cs generalizing w with
  | nil => cases h; exact ⟨AsIf.refl _, inv⟩
  | cons c cs ih =>
    have hf := Fine.go c inv
    have hi := AsIf.inv inv hf
    rw [runAll] at h
    have h' : runAll (c.go w).2 cs = some w' := by
      split at h
      · cases h
      · exact h
    exact ⟨AsIf.trans hf (ih hi h').1, (ih hi h').2⟩

/-- C120. Without panics this is the history of the sequential description. -/
theorem C120_without {ops : List V1Op} (inv : w.Inv) (h : V1Op.run w ops = .ok w') : runAll w (ops.map ofV1Op) = some w' := by
  induction ops generalizing w with
  | nil => cases h; rfl
  | cons op ops ih =>
    rw [V1Op.run, Out.bind_eq_ok] at h
    obtain ⟨w1, h1, h⟩ := h
    have hg : There w op := by
      cases op with
      | role op =>
        rw [V1Op.apply, Out.map_eq_ok] at h1
        obtain ⟨hp, h1, _⟩ := h1
        cases op with
        | addGroup r ga =>
          rw [RoleOp.apply, Out.map_eq_ok] at h1
          obtain ⟨_, h1, _⟩ := h1
          rw [RHeap.addPermissionResourceGroup] at h1
          split at h1
          · rename_i hx; exact RHeap.lt_of_get hx
          · cases h1
        | addAttrs ga as =>
          rw [RoleOp.apply, RHeap.groupAddAttributes] at h1
          split at h1
          · cases h1
          · rename_i hx; exact RHeap.lt_of_get hx
        | _ => trivial
      | tAddPrincipal c p rs => obtain ⟨t, ht⟩ := V1.tobj_of_withT h1; exact RHeap.lt_of_get ht
      | _ => trivial
    have ha := go_agrees inv hg
    rw [h1] at ha
    rw [List.map_cons, runAll, show (ofV1Op op).go w = _ from ha]
    exact ih ((V1Op.good h1) inv).1 h

/-- C120. A call that panics in the sequential description panics with pointers, too, and the other way round. -/
theorem C120_panics {op : V1Op} (inv : w.Inv) (hg : There w op) : ((ofV1Op op).go w).1 = .panic ↔ op.apply w = .panic := by
  have ha := go_agrees inv hg
  cases h : op.apply w with
  | ok x => rw [h] at ha; rw [show (ofV1Op op).go w = _ from ha]; simp
  | panic => rw [h] at ha; rw [show ((ofV1Op op).go w).1 = _ from ha]; simp
  | diverge => rw [h] at ha; rw [show ((ofV1Op op).go w).1 = _ from ha]; simp

/-- C120. Panics that are recovered from take no assignment away, and no access that is asked for without group and activity. -/
theorem C120_keeps {cs : List NCall} (inv : w.Inv) (h : runAll w cs = some w') :
    (∀ x, Row w x → Row w' x) ∧
    ∀ {o o' : Ord} {fuel fuel' : Nat} {site site' : List Val} {p : Str} {opts : List Opt} {b : Bool}, V1.ResourceRequest (requestOf opts) →
      w.authorize o fuel site p opts = .ok true → w'.authorize o' fuel' site' p opts = .ok b → b = true := by
  obtain ⟨⟨ops, h1⟩, _⟩ := C120_recovered inv h
  exact ⟨(V1.C43_never_removed inv h1).2, fun hr h2 h3 => V1.C82_resources inv hr h2 h1 h3⟩

/-- C120. A decision changes nothing, whether it panics or not; it panics on a nil option, and otherwise only as in the sequential
description. -/
theorem C120_asked {o : Ord} {fuel : Nat} {site : List Val} {p : Str} {opts : List (Option Opt)} :
    (RV.authorize o fuel site p opts w).2 = w ∧ (none ∈ opts → (RV.authorize o fuel site p opts w).1 = .panic) ∧
    ∀ os : List Opt, opts = os.map some → (RV.authorize o fuel site p opts w).1 = w.authorize o fuel site p os := by
  rw [RV.authorize, look_bind]
  refine ⟨?_, fun h => ?_, fun os e => ?_⟩
  · cases derefAll opts <;> rfl
  · have : derefAll opts = .panic := by
      induction opts with
      | nil => cases h
      | cons a l ih =>
        cases a with
        | none => rfl
        | some a =>
          rw [derefAll, ih (by simpa using h)]
          rfl
    rw [this]
  · rw [e, derefAll_some]
    rfl

/-- The calls about one object, the calls that assign, and the questions. -/
def Single : NCall → Prop
  | .addTenants l | .addRoles l | .addAttributeGroups l | .addNamespaces l => l.length ≤ 1
  | .addScopes l | .addPrincipals l => l.length ≤ 1
  | .addAttributes l => l.length ≤ 1
  | .roleAddDescendent _ l => l.length ≤ 1
  | .roleAddPermission _ _ l | .groupAddAttributes _ l => l.length ≤ 1
  | .tAddDescendent _ l | .tAddNamespace _ l | .tAddRole _ l | .nsAddRoles _ l => l.length ≤ 1
  | .tAddScopes _ l | .nsAddScopes _ l => l.length ≤ 1
  | .tAddScopesToNamespace .. => False
  | _ => True

/-- When the computation panics it has changed nothing. -/
def Safe (x : Rec α) (w : V1) : Prop := (x w).1 = .panic → (x w).2 = w

theorem Safe.whole {x : Rec α} {s : Out (α × V1)} (h : x w = RV.whole s w) : Safe x w := by
  intro hp
  rw [h] at hp ⊢
  cases s with
  | ok y => cases hp
  | panic => rfl
  | diverge => rfl

theorem Safe.each {f : α → Rec Unit} {l : List α} (hl : l.length ≤ 1) (h : ∀ x ∈ l, Safe (f x) w) : Safe (RV.each f l) w := by
  match l, hl with
  | [], _ => intro hp; cases hp
  | [x], _ => have := h x (List.mem_cons_self ..); unfold Safe; rw [each_one]; exact this

theorem Safe.drop {x : Rec α} (h : Safe x w) : Safe x.drop w := by
  unfold Safe Rec.drop Rec.bind
  cases hx : (x w).1 with
  | ok a => intro hp; cases hp
  | panic => intro _; exact h hx
  | diverge => intro hp; cases hp

theorem Safe.ok {x : Rec α} {a : α} (h : (x w).1 = .ok a) : Safe x w := by
  intro hp; rw [h] at hp; cases hp

theorem Safe.bindOk {x : Rec α} {f : α → Rec β} (h : Safe x w) (hf : ∀ a v, ∃ b, (f a v).1 = .ok b) : Safe (x.bind f) w := by
  unfold Safe Rec.bind
  cases hx : (x w).1 with
  | ok a => obtain ⟨b, hb⟩ := hf a (x w).2; intro hp; rw [show (f a (x w).2).1 = _ from hb] at hp; cases hp
  | panic => intro _; exact h hx
  | diverge => intro hp; cases hp

theorem Safe.look {f : V1 → Out α} {k : α → Rec β} (h : ∀ a, f w = .ok a → Safe (k a) w) : Safe ((RV.look f).bind k) w := by
  unfold Safe
  rw [look_bind]
  cases hf : f w with
  | ok a => exact h a hf
  | panic => intro _; rfl
  | diverge => intro _; rfl

theorem Safe.deref {p : Option α} {k : α → Rec β} (h : ∀ a, p = some a → Safe (k a) w) : Safe ((RV.deref p).bind k) w := by
  cases p with
  | none => intro _; rfl
  | some a => exact h a rfl

theorem Safe.ite {c : Prop} [Decidable c] {x y : Rec α} (h1 : c → Safe x w) (h2 : ¬ c → Safe y w) : Safe (if c then x else y) w := by
  split
  · exact h1 ‹_›
  · exact h2 ‹_›

theorem perm_ok (inv : w.Inv) {r : Nat} {ro : RoleObj} (hr : w.heap.roles[r]? = some ro) {group : Str} {as : List Attr} :
    ∃ e, (roleAddPermission (some r) group (as.map some) w).1 = .ok e := by
  have ha := perm_agrees inv (r := r) (group := group) (as := as)
  cases he : w.heap.addPermission r group as with
  | ok x => rw [he] at ha; exact ⟨x.1, by rw [show _ = _ from ha]⟩
  | panic =>
    rw [RHeap.addPermission, hr] at he
    dsimp only at he
    split at he
    · cases he
    · split at he
      · rename_i ga hg
        rw [List.getElem?_eq_getElem (inv.heap.perms ro (List.mem_of_getElem? hr) _ (GoMap.get_some_mem hg))] at he
        cases he
      · cases he
  | diverge =>
    rw [RHeap.addPermission, hr] at he
    dsimp only at he
    split at he
    · cases he
    · split at he
      · split at he <;> cases he
      · cases he

theorem associated_true {g : GroupObj} {as : List (Option Attr)} (h : associated g as = .ok true) : ∃ l : List Attr, as = l.map some := by
  induction as with
  | nil => exact ⟨[], rfl⟩
  | cons q as ih =>
    cases q with
    | none => cases h
    | some a =>
      rw [associated] at h
      split at h
      · obtain ⟨l, rfl⟩ := ih h; exact ⟨a :: l, rfl⟩
      · cases h

theorem Safe.still {x : Rec α} (h : (x w).2 = w) : Safe x w := fun _ => h

theorem Steps.safe {f : Option β → Rec Unit} {g : V1 → β → Out V1} {op : List β → V1Op} (h : Steps f g op) {l : List (Option β)} (inv : w.Inv)
    (hl : l.length ≤ 1) : Safe (RV.each f l) w := by
  refine Safe.each hl fun x _ => ?_
  cases x with
  | none => rw [h.nil]; exact fun _ => rfl
  | some x => exact Safe.whole (h.step w x inv)

theorem each_ok {P : V1 → Prop} {f : α → Rec Unit} {l : List α} (h : ∀ w x, x ∈ l → P w → ∃ v, f x w = (.ok (), v) ∧ P v) (hw : P w) :
    ∃ v, RV.each f l w = (.ok (), v) ∧ P v := by
  induction l generalizing w with
  | nil => exact ⟨w, rfl, hw⟩
  | cons x l ih =>
    obtain ⟨v, h1, h2⟩ := h w x (List.mem_cons_self ..) hw
    rw [RV.each, bind_of h1]
    exact ih (fun w y hy => h w y (List.mem_cons_of_mem _ hy)) h2

/-- The tenant is there and has a manager. -/
def Managed (c : Nat) (t : T1Obj) (w : V1) : Prop := w.Inv ∧ w.tobjs[c]? = some t

theorem tAssign_ok {c : Nat} {t : T1Obj} (hm : t.managed = true) (h : Managed c t w) {p r : Str} {ns : Option Nat} {sc : Option Str}
    (hn : ∀ a, ns = some a → ∃ no, w.nsobjs[a]? = some no) :
    ∃ v, tAddPrincipalRole (some c) p r (some c) ns sc [] w = (.ok (), v) ∧ Managed c t v := by
  obtain ⟨n, hn⟩ : ∃ n, w.nsID ns = .ok n := by
    cases ns with
    | none => exact ⟨[], rfl⟩
    | some a => obtain ⟨no, h⟩ := hn a rfl; exact ⟨no.id, by rw [V1.nsID, h]⟩
  have h1 : ∃ v, w.tAddPrincipalRole c p r c ns sc [] = .ok v := by
    rw [V1.tAddPrincipalRole, V1.withT, h.2]
    dsimp only
    rw [if_pos hm, V1.addPrincipalRole, h.2, hn]
    exact ⟨_, rfl⟩
  obtain ⟨v, h1⟩ := h1
  refine ⟨v, by rw [tAssign_eq, h1]; rfl, AsIf.inv h.1 (.one (op := .tAddPrincipalRole c p r c ns sc []) h1), ?_⟩
  rw [tAssign_tobjs h1]; exact h.2

theorem default_ok {c : Nat} {t : T1Obj} (hm : t.managed = true) (h : Managed c t w) {p r : Str} {sc : Option Str} :
    ∃ v, withDefault c p r sc w = (.ok (), v) ∧ Managed c t v := by
  obtain ⟨v, h1, h2⟩ := tAssign_ok hm h (p := p) (r := r) (ns := none) (sc := sc) (by simp)
  rw [withDefault, bind_of h1, tenantAt_bind, h2.2]
  dsimp only
  cases hd : t.defNs with
  | none => exact ⟨v, rfl, h2⟩
  | some a => exact tAssign_ok hm h2 fun a' e => by cases e; exact def_there h2.1 h2.2 hd

theorem bind_panic {x : Rec α} {f : α → Rec β} (h : x w = (.panic, w')) : (x.bind f) w = (.panic, w') := by
  unfold Rec.bind; rw [h]

theorem tAssign_un {c : Nat} {t : T1Obj} (hm : t.managed = false) (h : w.tobjs[c]? = some t) {p r : Str} {d ns : Option Nat} {sc : Option Str} {m : List Bool} :
    tAddPrincipalRole (some c) p r d ns sc m w = (.panic, w) := by
  rw [tAddPrincipalRole, managed_eq, h]
  dsimp only
  rw [hm]; rfl

theorem default_un {c : Nat} {t : T1Obj} (hm : t.managed = false) (h : w.tobjs[c]? = some t) {p r : Str} {sc : Option Str} :
    withDefault c p r sc w = (.panic, w) := by
  rw [withDefault, bind_panic (tAssign_un hm h)]

theorem Safe.addPrincipal (inv : w.Inv) {q : Option Nat} {p : Str} {rs : List Str} : Safe (tAddPrincipal q p rs) w := by
  cases q with
  | none => exact .still (each_still fun r _ => rfl)
  | some c =>
    cases ht : w.tobjs[c]? with
    | none => exact .still (each_still fun r _ => by rw [deref_some, ret_bind, tenantAt_bind, ht])
    | some t =>
      cases hm : t.managed with
      | true =>
        obtain ⟨v, h, _⟩ := each_ok (P := Managed c t) (l := rs) (f := fun r => (RV.deref (some c)).bind fun c => (tenantAt c).bind fun t =>
            if (t.roles.get r).isSome then withDefault c p r none else ret ()) (fun w r _ h => by
          rw [deref_some, ret_bind, tenantAt_bind, h.2]
          dsimp only
          split
          · exact default_ok hm h
          · exact ⟨w, rfl, h⟩) ⟨inv, ht⟩
        exact Safe.ok (a := ()) (by rw [tAddPrincipal, h])
      | false =>
        refine .still (each_still fun r _ => ?_)
        rw [deref_some, ret_bind, tenantAt_bind, ht]
        dsimp only
        split
        · rw [default_un hm ht]
        · rfl

theorem Safe.inNamespace (inv : w.Inv) {o : Ord} {site : List Val} {q : Option Nat} {p n : Str} {rs : List Str} :
    Safe (tAddPrincipalInNamespace o site q p n rs) w := by
  refine Safe.deref fun c _ => ?_
  unfold Safe
  rw [tenantAt_bind]
  cases ht : w.tobjs[c]? with
  | none => exact fun _ => rfl
  | some t =>
    dsimp only
    cases hn : t.namespaces.get n with
    | none => exact fun _ => rfl
    | some a =>
      dsimp only
      by_cases hl : 0 < rs.length
      · rw [if_pos hl]
        cases hm : t.managed with
        | true =>
          obtain ⟨v, h, _⟩ := each_ok (P := Managed c t) (l := rs) (f := fun r => (tenantAt c).bind fun t =>
              match t.roles.get r with
              | none => ret ()
              | some ra => (roleAt ra).bind fun ro => tAddPrincipalRole (some c) p ro.id (some c) (some a) none []) (fun w r _ h => by
            rw [tenantAt_bind, h.2]
            dsimp only
            cases hr : t.roles.get r with
            | none => exact ⟨w, rfl, h⟩
            | some ra =>
              obtain ⟨ro, hro, _⟩ := (h.1.tobjs t (List.mem_of_getElem? h.2)).roles _ (GoMap.get_some_mem hr)
              obtain ⟨no, hno, _⟩ := ns_there h.1 h.2 hn
              dsimp only
              rw [roleAt_bind, hro]
              exact tAssign_ok hm h fun a' e => by cases e; exact ⟨no, hno⟩) ⟨inv, ht⟩
          exact fun e => absurd (e.symm.trans (congrArg Prod.fst h)) (by simp)
        | false =>
          intro _
          refine each_still fun r _ => ?_
          rw [tenantAt_bind, ht]
          dsimp only
          cases t.roles.get r with
          | none => rfl
          | some ra =>
            dsimp only
            rw [roleAt_bind]
            cases w.heap.roles[ra]? with
            | none => rfl
            | some ro => dsimp only; rw [tAssign_un hm ht]
      · rw [if_neg hl, managed_eq, ht]
        dsimp only
        cases hm : t.managed with
        | false => exact fun _ => rfl
        | true =>
          simp only [if_true]
          refine Safe.look fun l _ => ?_
          obtain ⟨no, hno, _⟩ := ns_there inv ht hn
          obtain ⟨v, h, hv⟩ := each_ok (P := Managed c t) (l := l) (f := fun x : TP => if x.principal = p ∧ x.namespace_ ≠ [] ∧ x.namespace_ ≠ n then
              tAddPrincipalRole (some c) p x.role (some c) (some a) none [] else ret ()) (fun w x _ h => by
            split
            · obtain ⟨no, hno, _⟩ := ns_there h.1 h.2 hn
              exact tAssign_ok hm h fun a' e => by cases e; exact ⟨no, hno⟩
            · exact ⟨w, rfl, h⟩) ⟨inv, ht⟩
          obtain ⟨no', hno', _⟩ := ns_there hv.1 hv.2 hn
          obtain ⟨u, hu, _⟩ := tAssign_ok hm hv (p := p) (r := []) (ns := some a) (sc := none) fun a' e => by cases e; exact ⟨no', hno'⟩
          exact Safe.ok (a := ()) (by rw [bind_of h, hu])

theorem Safe.assignScopes (inv : w.Inv) {o : Ord} {site : List Val} {q : Option Nat} {p : Str} {ss : List Str} :
    Safe (tAssignScopesToPrincipal o site q p ss) w := by
  refine Safe.deref fun c _ => ?_
  unfold Safe
  rw [managed_eq]
  cases ht : w.tobjs[c]? with
  | none => exact fun _ => rfl
  | some t =>
    dsimp only
    cases hm : t.managed with
    | false => exact fun _ => rfl
    | true =>
      simp only [if_true]
      refine Safe.look fun l _ => Safe.ite (fun _ => Safe.ok rfl) fun _ => ?_
      obtain ⟨v, h, _⟩ := each_ok (P := Managed c t) (l := ss) (f := fun s => (tenantAt c).bind fun t =>
          if (t.scopes.get s).isSome then
            (RV.each (fun x : TP => withDefault c p x.role (some s)) l).bind fun _ => tAddPrincipalRole (some c) p [] (some c) none (some s) []
          else ret ()) (fun w s _ h => by
        rw [tenantAt_bind, h.2]
        dsimp only
        split
        · obtain ⟨v, h1, h2⟩ := each_ok (P := Managed c t) (l := l) (f := fun x : TP => withDefault c p x.role (some s)) (fun w x _ h => default_ok hm h) h
          rw [bind_of h1]
          exact tAssign_ok hm h2 (by simp)
        · exact ⟨w, rfl, h⟩) ⟨inv, ht⟩
      exact Safe.ok (a := ()) (by rw [h])

theorem Safe.assignWithRole (inv : w.Inv) {o : Ord} {site : List Val} {q : Option Nat} {p r : Str} {ss : List Str} :
    Safe (tAssignScopesWithRole o site q p r ss) w := by
  refine Safe.ite (fun _ => Safe.ok rfl) fun _ => Safe.deref fun c _ => ?_
  unfold Safe
  rw [managed_eq]
  cases ht : w.tobjs[c]? with
  | none => exact fun _ => rfl
  | some t =>
    dsimp only
    cases hm : t.managed with
    | false => exact fun _ => rfl
    | true =>
      simp only [if_true]
      refine Safe.look fun l _ => Safe.ite (fun _ => Safe.ok rfl) fun _ => Safe.ite (fun _ => ?_) fun _ => Safe.ok rfl
      obtain ⟨v, h, _⟩ := each_ok (P := Managed c t) (l := ss) (f := fun s => (tenantAt c).bind fun t =>
          if (t.scopes.get s).isSome then withDefault c p r (some s) else ret ()) (fun w s _ h => by
        rw [tenantAt_bind, h.2]
        dsimp only
        split
        · exact default_ok hm h
        · exact ⟨w, rfl, h⟩) ⟨inv, ht⟩
      exact Safe.ok (a := ()) (by rw [h])

theorem rolesTo_ok (inv : w.Inv) {c : Nat} {t : T1Obj} (ht : w.tobjs[c]? = some t) {n : Str} {rs : List Str} :
    ∃ v, tAddRolesToNamespace (some c) n rs w = (.ok (), v) := by
  induction rs generalizing w with
  | nil => exact ⟨w, rfl⟩
  | cons r rs ih =>
    have hf := Fine.rolesTo (w := w) (q := some c) (n := n) (rs := [r])
    unfold Fine at hf
    rw [tAddRolesToNamespace, deref_some, ret_bind, tenantAt_bind, ht] at hf ⊢
    dsimp only at hf ⊢
    cases hr : t.roles.get r with
    | none => exact ⟨w, rfl⟩
    | some obj =>
      rw [hr] at hf
      dsimp only at hf ⊢
      cases hn : t.namespaces.get n with
      | none => exact ⟨w, rfl⟩
      | some a =>
        rw [hn] at hf
        dsimp only at hf ⊢
        obtain ⟨no, hno, _⟩ := ns_there inv ht hn
        rw [nsAt_bind, hno] at hf ⊢
        dsimp only at hf ⊢
        rw [bind_of (keepRole_eq hno)] at hf ⊢
        exact ih (AsIf.inv inv hf) ht

/-- C120. A call about one object, a call that assigns and a question change nothing when they panic. -/
theorem C120_nothing {c : NCall} (inv : w.Inv) (hs : Single c) (h : (c.go w).1 = .panic) : (c.go w).2 = w := by
  suffices H : Safe c.go w from H h
  cases c with
  | newRole id => exact Safe.ok rfl
  | newGroup id => exact Safe.ok rfl
  | newTenant id => exact Safe.ok rfl
  | newNamespace id => exact Safe.ok rfl
  | addTenants l =>
    refine Safe.each hs fun q _ => ?_
    cases q with
    | none => intro _; rfl
    | some a => exact Safe.whole (addTenant_eq a)
  | addNamespaces l =>
    refine Safe.each hs fun q _ => ?_
    cases q with
    | none => intro _; rfl
    | some a => exact Safe.whole (addNamespace_eq a)
  | addScopes l =>
    refine Safe.each hs fun q _ => ?_
    cases q with
    | none => intro _; rfl
    | some x => exact Safe.ok (by rw [addScope_eq])
  | addPrincipals l =>
    refine Safe.each hs fun q _ => ?_
    cases q with
    | none => intro _; rfl
    | some x => exact Safe.ok (by rw [addPrincipal_eq])
  | addAttributes l =>
    refine Safe.each hs fun q _ => ?_
    cases q with
    | none => intro _; rfl
    | some x => exact Safe.ok (by rw [addAttribute_eq])
  | addRoles l =>
    refine Safe.each hs fun q _ => ?_
    cases q with
    | none => intro _; rfl
    | some a => exact Safe.whole (addRole_eq a)
  | addAttributeGroups l =>
    refine Safe.each hs fun q _ => ?_
    cases q with
    | none => intro _; rfl
    | some a => exact Safe.whole (addAttributeGroup_eq a)
  | roleAddDescendent r ds =>
    refine Safe.drop (Safe.deref fun r _ => Safe.look fun ro _ => Safe.ite (fun _ => Safe.ok rfl) fun _ =>
      Safe.bindOk (Safe.each hs fun q _ => ?_) fun _ _ => ⟨none, rfl⟩)
    exact Safe.deref fun d _ => Safe.look fun dro _ => Safe.look fun ro _ => Safe.ite (fun _ => Safe.ok rfl) fun _ => Safe.ok rfl
  | roleAddPermission r g as =>
    refine Safe.drop ?_
    cases r with
    | none => intro _; rfl
    | some r =>
      cases hr : w.heap.roles[r]? with
      | none => unfold Safe; rw [RV.roleAddPermission, deref_some, ret_bind, roleAt_bind, hr]; intro _; rfl
      | some ro =>
        match as, hs with
        | [], _ => obtain ⟨e, he⟩ := perm_ok inv hr (group := g) (as := []); exact Safe.ok he
        | [some a], _ => obtain ⟨e, he⟩ := perm_ok inv hr (group := g) (as := [a]); exact Safe.ok he
        | [none], _ =>
          refine Safe.deref fun r _ => Safe.look fun ro hr => Safe.ite (fun _ => Safe.ok rfl) fun _ => ?_
          cases ro.perms.get g with
          | none => exact Safe.look fun as _ => Safe.ok rfl
          | some ga => intro _; rfl
  | roleAddGroup r ga =>
    exact Safe.drop (Safe.deref fun r _ => Safe.look fun ro _ => Safe.ite (fun _ => Safe.ok rfl) fun _ =>
      Safe.deref fun d _ => Safe.look fun g _ => Safe.ite (fun _ => Safe.ok rfl) fun _ => Safe.ok rfl)
  | roleLock r b =>
    cases r with
    | none => intro _; rfl
    | some r => exact Safe.whole (lock_eq r b)
  | groupAddAttributes ga as =>
    exact Safe.each hs fun q _ => Safe.deref fun a _ => Safe.deref fun ga _ => Safe.look fun g _ => Safe.ok rfl
  | addPermissionsToRole r g as =>
    refine Safe.drop ?_
    unfold Safe
    rw [RV.addPermissionsToRole, read_bind]
    cases hr : w.roles.get r with
    | none => intro h; cases h
    | some ra =>
      dsimp only
      rw [read_bind]
      cases w.attrGroups.get g with
      | none => intro h; cases h
      | some ga =>
        refine Safe.look fun g _ => Safe.look fun b hb => Safe.ite (fun hb' => ?_) fun _ => Safe.ok rfl
        subst hb'
        obtain ⟨l, rfl⟩ := associated_true hb
        obtain ⟨ro, hro, _⟩ := inv.roles _ _ hr
        obtain ⟨e, he⟩ := perm_ok inv hro
        exact Safe.ok he
  | addPrincipalRole p r c ns sc m =>
    cases c with
    | none => intro _; rfl
    | some c => exact Safe.whole assign_eq
  | tAddPrincipalRole c p r d ns sc m =>
    cases c with
    | none => intro _; rfl
    | some c =>
      cases d with
      | some d => exact Safe.whole tAssign_eq
      | none =>
        show Safe (RV.tAddPrincipalRole _ _ _ _ _ _ _) w
        unfold Safe
        rw [RV.tAddPrincipalRole, managed_eq]
        cases w.tobjs[c]? with
        | none => exact fun _ => rfl
        | some t => dsimp only; split <;> exact fun _ => rfl
  | tAddPrincipal c p rs => exact Safe.addPrincipal inv
  | tAddPrincipalInNamespace o site c p n rs => exact Safe.inNamespace inv
  | tAssignScopesToPrincipal o site c p ss => exact Safe.assignScopes inv
  | tAssignScopesWithRole o site c p r ss => exact Safe.assignWithRole inv
  | tAddDescendent c ds =>
    cases c with
    | none => exact .still (each_still fun _ _ => rfl)
    | some c => exact (desc_steps c).safe inv hs
  | tSetDefaultNamespace c n =>
    cases c with
    | none => intro _; rfl
    | some c => exact Safe.whole setDefault_eq
  | tAddNamespace c ns =>
    cases c with
    | none => exact .still (each_still fun _ _ => rfl)
    | some c => exact (ns_steps c).safe inv hs
  | tAddRole c rs =>
    cases c with
    | none => exact .still (each_still fun _ _ => rfl)
    | some c => exact (role_steps c).safe inv hs
  | tAddScopes c ss =>
    cases c with
    | none => exact .still (each_still fun _ _ => rfl)
    | some c => exact (scope_steps c).safe inv hs
  | tAddScopesToNamespace c n ss => cases hs
  | tAddRolesToNamespace c n rs =>
    cases c with
    | none => cases rs <;> exact fun _ => rfl
    | some c =>
      cases ht : w.tobjs[c]? with
      | some t =>
        obtain ⟨v, h⟩ := rolesTo_ok inv ht (n := n) (rs := rs)
        exact Safe.ok (a := ()) (by show (RV.tAddRolesToNamespace _ _ _ w).1 = _; rw [h])
      | none =>
        cases rs with
        | nil => exact fun _ => rfl
        | cons r rs =>
          refine .still ?_
          show (RV.tAddRolesToNamespace _ _ _ w).2 = _
          rw [RV.tAddRolesToNamespace, deref_some, ret_bind, tenantAt_bind, ht]
  | nsAddRoles n rs =>
    cases n with
    | none => exact .still (each_still fun _ _ => rfl)
    | some n => exact (nsRole_steps n).safe inv hs
  | nsAddScopes n ss =>
    cases n with
    | none => exact .still (each_still fun _ _ => rfl)
    | some n => exact (nsScope_steps n).safe inv hs
  | authorize o fuel site p opts => exact Safe.drop (.still C120_asked.1)

/-- The calls about single objects that a call about several makes. -/
def parts : NCall → Option (List NCall)
  | .addTenants l => some (l.map fun q => .addTenants [q])
  | .addNamespaces l => some (l.map fun q => .addNamespaces [q])
  | .addScopes l => some (l.map fun q => .addScopes [q])
  | .addPrincipals l => some (l.map fun q => .addPrincipals [q])
  | .addAttributes l => some (l.map fun q => .addAttributes [q])
  | .addRoles l => some (l.map fun q => .addRoles [q])
  | .addAttributeGroups l => some (l.map fun q => .addAttributeGroups [q])
  | .groupAddAttributes ga l => some (l.map fun q => .groupAddAttributes ga [q])
  | .tAddDescendent c l => some (l.map fun q => .tAddDescendent c [q])
  | .tAddNamespace c l => some (l.map fun q => .tAddNamespace c [q])
  | .tAddRole c l => some (l.map fun q => .tAddRole c [q])
  | .tAddScopes c l => some (l.map fun q => .tAddScopes c [q])
  | .nsAddRoles c l => some (l.map fun q => .nsAddRoles c [q])
  | .nsAddScopes c l => some (l.map fun q => .nsAddScopes c [q])
  | _ => none

/-- The calls return and lead from `w` to `u`. -/
def Return (w : V1) : List NCall → V1 → Prop
  | [], u => u = w
  | c :: cs, u => ∃ v, c.go w = (.ok (), v) ∧ Return v cs u

theorem each_panic {f : α → Rec Unit} {g : α → NCall} (hg : ∀ x w, (g x).go w = f x w) {l : List α} (h : (RV.each f l w).1 = .panic) :
    ∃ l1 x l2 u, l = l1 ++ x :: l2 ∧ Return w (l1.map g) u ∧ ((g x).go u).1 = .panic ∧ (RV.each f l w).2 = ((g x).go u).2 := by
  induction l generalizing w with
  | nil => cases h
  | cons x l ih =>
    rw [RV.each] at h ⊢
    cases hx : f x w with
    | mk a v =>
      cases a with
      | ok _ =>
        rw [bind_of hx] at h ⊢
        obtain ⟨l1, y, l2, u, rfl, h1, h2, h3⟩ := ih h
        exact ⟨x :: l1, y, l2, u, rfl, ⟨v, by rw [hg, hx], h1⟩, h2, h3⟩
      | panic => exact ⟨[], x, l, w, rfl, rfl, by rw [hg, hx], by rw [hg, hx, Rec.bind, hx]⟩
      | diverge => rw [Rec.bind, hx] at h; cases h

/-- C120. A call about several objects that panics leaves what the calls for the objects before the first one that panics leave; that one
and the objects after it leave nothing. -/
theorem C120_prefix {c : NCall} {ps : List NCall} (inv : w.Inv) (hps : parts c = some ps) (h : (c.go w).1 = .panic) :
    ∃ before q after u, ps = before ++ q :: after ∧ Return w before u ∧ (q.go u).1 = .panic ∧ (c.go w).2 = u := by
  have go {α : Type} {f : α → Rec Unit} {g : α → NCall} {l : List α} (hg : ∀ x w, (g x).go w = f x w) (hc : c.go = RV.each f l)
      (hp : ps = l.map g) (hsing : ∀ x, Single (g x)) :
      ∃ before q after u, ps = before ++ q :: after ∧ Return w before u ∧ (q.go u).1 = .panic ∧ (c.go w).2 = u := by
    rw [hc] at h ⊢
    obtain ⟨l1, x, l2, u, rfl, h1, h2, h3⟩ := each_panic hg h
    refine ⟨l1.map g, g x, l2.map g, u, by rw [hp, List.map_append, List.map_cons], h1, h2, ?_⟩
    have iu : u.Inv := by
      clear h2 h3 hp h hc
      generalize l1.map g = cs at h1
      induction cs generalizing w with
      | nil => cases h1; exact inv
      | cons c cs ih =>
        obtain ⟨v, hv, h1⟩ := h1
        have := AsIf.inv inv (Fine.go c inv)
        rw [hv] at this
        exact ih this h1
    rw [h3]; exact C120_nothing iu (hsing x) h2
  cases c <;> simp only [parts, reduceCtorEq, Option.some.injEq] at hps
  case addTenants l => exact go (g := fun q => .addTenants [q]) (fun _ _ => each_one) rfl hps.symm fun _ => Nat.le_refl 1
  case addNamespaces l => exact go (g := fun q => .addNamespaces [q]) (fun _ _ => each_one) rfl hps.symm fun _ => Nat.le_refl 1
  case addScopes l => exact go (g := fun q => .addScopes [q]) (fun _ _ => each_one) rfl hps.symm fun _ => Nat.le_refl 1
  case addPrincipals l => exact go (g := fun q => .addPrincipals [q]) (fun _ _ => each_one) rfl hps.symm fun _ => Nat.le_refl 1
  case addAttributes l => exact go (g := fun q => .addAttributes [q]) (fun _ _ => each_one) rfl hps.symm fun _ => Nat.le_refl 1
  case addRoles l => exact go (g := fun q => .addRoles [q]) (fun _ _ => each_one) rfl hps.symm fun _ => Nat.le_refl 1
  case addAttributeGroups l => exact go (g := fun q => .addAttributeGroups [q]) (fun _ _ => each_one) rfl hps.symm fun _ => Nat.le_refl 1
  case groupAddAttributes ga l => exact go (g := fun q => .groupAddAttributes ga [q]) (fun _ _ => each_one) rfl hps.symm fun _ => Nat.le_refl 1
  case tAddDescendent c l => exact go (g := fun q => .tAddDescendent c [q]) (fun _ _ => each_one) rfl hps.symm fun _ => Nat.le_refl 1
  case tAddNamespace c l => exact go (g := fun q => .tAddNamespace c [q]) (fun _ _ => each_one) rfl hps.symm fun _ => Nat.le_refl 1
  case tAddRole c l => exact go (g := fun q => .tAddRole c [q]) (fun _ _ => each_one) rfl hps.symm fun _ => Nat.le_refl 1
  case tAddScopes c l => exact go (g := fun q => .tAddScopes c [q]) (fun _ _ => each_one) rfl hps.symm fun _ => Nat.le_refl 1
  case nsAddRoles c l => exact go (g := fun q => .nsAddRoles c [q]) (fun _ _ => each_one) rfl hps.symm fun _ => Nat.le_refl 1
  case nsAddScopes c l => exact go (g := fun q => .nsAddScopes c [q]) (fun _ _ => each_one) rfl hps.symm fun _ => Nat.le_refl 1

theorem each_append {f : α → Rec Unit} {l1 l2 : List α} : RV.each f (l1 ++ l2) w = ((RV.each f l1).bind fun _ => RV.each f l2) w := by
  induction l1 generalizing w with
  | nil => rfl
  | cons x l1 ih =>
    show ((f x).bind fun _ => RV.each f (l1 ++ l2)) w = (((f x).bind fun _ => RV.each f l1).bind fun _ => RV.each f l2) w
    unfold Rec.bind
    cases (f x w).1 with
    | ok a => exact ih
    | panic => rfl
    | diverge => rfl

theorem scopesTo_ok (inv : w.Inv) {c : Nat} {t : T1Obj} (hm : t.managed = true) (ht : w.tobjs[c]? = some t) {n : Str} {ss : List Str} :
    ∃ v, tAddScopesToNamespace (some c) n ss w = (.ok (), v) := by
  induction ss generalizing w with
  | nil => exact ⟨w, rfl⟩
  | cons s ss ih =>
    rw [tAddScopesToNamespace, deref_some, ret_bind, tenantAt_bind, ht]
    dsimp only
    cases t.scopes.get s with
    | none => exact ⟨w, rfl⟩
    | some obj =>
      dsimp only
      cases hn : t.namespaces.get n with
      | none => exact ih inv ht
      | some a =>
        obtain ⟨no, hno, _⟩ := ns_there inv ht hn
        have hf := Fine.keepScope (w := w) (a := a) (s := s) (obj := obj)
        unfold Fine at hf
        dsimp only
        rw [keepScope_eq hno] at hf
        rw [bind_of (keepScope_eq hno)]
        obtain ⟨v, h1, h2⟩ := tAssign_ok hm (c := c) (t := t) (w := w.setNs a { no with scopes := V1.setAbsent no.scopes s obj }) ⟨AsIf.inv inv hf, ht⟩
          (p := []) (r := []) (ns := some a) (sc := some s) fun a' e => by
            cases e; exact ⟨_, List.getElem?_set_self (RHeap.lt_of_get hno)⟩
        rw [bind_of h1]
        exact ih h2.1 h2.2

/-- C120. `AddScopesToNamespace` of a tenant panics just when the tenant has no manager, but the first scope and the namespace. The scope is
then in the namespace if it was not there before, and nothing else has changed; for the other scopes nothing is done. -/
theorem C120_scope {c : Nat} {t : T1Obj} (inv : w.Inv) (ht : w.tobjs[c]? = some t) {n : Str} {ss : List Str} :
    ((tAddScopesToNamespace (some c) n ss w).1 = .panic ↔ t.managed = false ∧ ∃ s more, ss = s :: more ∧ In t.scopes s ∧ In t.namespaces n) ∧
    ((tAddScopesToNamespace (some c) n ss w).1 = .panic → ∃ s more obj a no, ss = s :: more ∧ t.scopes.get s = some obj ∧ t.namespaces.get n = some a ∧
      w.nsobjs[a]? = some no ∧ (tAddScopesToNamespace (some c) n ss w).2 =
        if (no.scopes.get s).isSome then w else { w with nsobjs := w.nsobjs.set a { no with scopes := no.scopes.set s obj } }) := by
  have ok := inv.tobjs t (List.mem_of_getElem? ht)
  cases hm : t.managed with
  | true =>
    obtain ⟨v, h⟩ := scopesTo_ok inv hm ht (n := n) (ss := ss)
    rw [h]
    simp
  | false =>
    cases hn : t.namespaces.get n with
    | none =>
      have h : ∃ v, tAddScopesToNamespace (some c) n ss w = (.ok (), v) := by
        induction ss with
        | nil => exact ⟨w, rfl⟩
        | cons s ss ih =>
          rw [tAddScopesToNamespace, deref_some, ret_bind, tenantAt_bind, ht]
          dsimp only
          cases t.scopes.get s with
          | none => exact ⟨w, rfl⟩
          | some obj => dsimp only; rw [hn]; exact ih
      obtain ⟨v, h⟩ := h
      have hn' : ¬ In t.namespaces n := fun ⟨a, ha⟩ => by rw [(GoMap.mem_iff_get ok.nsWF).1 ha] at hn; cases hn
      rw [h]
      simp [hn']
    | some a =>
      have hn' : In t.namespaces n := ⟨a, GoMap.get_some_mem hn⟩
      cases ss with
      | nil => exact ⟨⟨fun h => (by cases h), fun ⟨_, s, m, h, _⟩ => (by cases h)⟩, fun h => (by cases h)⟩
      | cons s ss =>
        rw [tAddScopesToNamespace, deref_some, ret_bind, tenantAt_bind, ht]
        dsimp only
        cases hs : t.scopes.get s with
        | none =>
          have hs' : ¬ In t.scopes s := fun ⟨a, ha⟩ => by rw [(GoMap.mem_iff_get ok.scopesWF).1 ha] at hs; cases hs
          refine ⟨⟨fun h => (by cases h), ?_⟩, fun h => (by cases h)⟩
          rintro ⟨_, s1, m, h, h1, _⟩
          cases h; exact absurd h1 hs'
        | some obj =>
          dsimp only
          rw [hn]
          dsimp only
          obtain ⟨no, hno, _⟩ := ns_there inv ht hn
          have hp : ((keepScope a s obj).bind fun _ => (tAddPrincipalRole (some c) [] [] (some c) (some a) (some s) []).bind fun _ =>
              tAddScopesToNamespace (some c) n ss) w = (.panic, w.setNs a { no with scopes := V1.setAbsent no.scopes s obj }) := by
            rw [bind_of (keepScope_eq hno), bind_panic (tAssign_un (w := w.setNs a { no with scopes := V1.setAbsent no.scopes s obj }) hm ht)]
          rw [hp]
          refine ⟨⟨fun _ => ⟨rfl, s, ss, rfl, ⟨obj, GoMap.get_some_mem hs⟩, hn'⟩, fun _ => rfl⟩, fun _ => ⟨s, ss, obj, a, no, rfl, hs, rfl, hno, ?_⟩⟩
          unfold V1.setAbsent
          cases no.scopes.get s with
          | none => rfl
          | some x => dsimp only; exact setNs_same (no := { no with scopes := no.scopes }) hno

theorem derefAll_nil {l : List α} {rest : List (Option α)} : derefAll (l.map some ++ none :: rest) = .panic := by
  induction l with
  | nil => rfl
  | cons a l ih => rw [List.map_cons, List.cons_append, derefAll, ih]; rfl

/-- C120. `AddPermission` with nil after some attributes: a group that the role has keeps the attributes; a group that it does not
have is not created. -/
theorem C120_attributes (inv : w.Inv) {r : Nat} {ro : RoleObj} (hr : w.heap.roles[r]? = some ro) (hl : ro.lock = false) {group : Str}
    {as : List Attr} {rest : List (Option Attr)} :
    (RV.roleAddPermission (some r) group (as.map some ++ none :: rest) w).1 = .panic ∧
    (RV.roleAddPermission (some r) group (as.map some ++ none :: rest) w).2 =
      if (ro.perms.get group).isSome then (RV.roleAddPermission (some r) group (as.map some) w).2 else w := by
  unfold RV.roleAddPermission
  rw [deref_some, ret_bind, roleAt_bind, hr, ret_bind, roleAt_bind, hr]
  simp only [hl, Bool.false_eq_true, if_false]
  cases hg : ro.perms.get group with
  | none =>
    dsimp only
    rw [look_bind, derefAll_nil]
    exact ⟨rfl, rfl⟩
  | some ga =>
    have := inv.heap.perms ro (List.mem_of_getElem? hr) _ (GoMap.get_some_mem hg)
    have hga := List.getElem?_eq_getElem this
    dsimp only
    have hk := keep_eq hga (as := as)
    have h1 : RV.each (keepAttr ga) (as.map some ++ none :: rest) w = (.panic, putGroup w ga { w.heap.groups[ga] with perms := RHeap.addAttrsKeep w.heap.groups[ga].perms as }) := by
      rw [each_append, bind_of hk]; rfl
    rw [Rec.bind, h1, bind_of hk, roleAt_bind,
      show (putGroup w ga { w.heap.groups[ga] with perms := RHeap.addAttrsKeep w.heap.groups[ga].perms as }).heap.roles[r]? = some ro from hr]
    refine ⟨rfl, ?_⟩
    simp only [Option.isSome_some, if_true]
    rw [setRole, write_bind, ret_apply]
    have e : ({ ro with perms := ro.perms.set group ga } : RoleObj) = ro := by rw [set_same hg]
    rw [e]
    simp only [putGroup, setList_same hr]

/-- C120. `AddDescendent` of a role with nil after some roles adds these. -/
theorem C120_roles {r : Nat} {ro : RoleObj} (hr : w.heap.roles[r]? = some ro) (hl : ro.lock = false)
    {ds : List Nat} {rest : List (Option Nat)} :
    (RV.roleAddDescendent (some r) (ds.map some ++ none :: rest) w).1 = .panic ∧
    (RV.roleAddDescendent (some r) (ds.map some ++ none :: rest) w).2 = (RV.roleAddDescendent (some r) (ds.map some) w).2 := by
  unfold RV.roleAddDescendent
  rw [deref_some, ret_bind, roleAt_bind, hr, ret_bind, roleAt_bind, hr]
  simp only [hl, Bool.false_eq_true, if_false]
  have ha := descLoop_agrees (w := w) (r := r) (ds := ds)
  have hn : ∀ (ds : List Nat) (h : RHeap), RHeap.addDescendant.loop r h ds ≠ .diverge := by
    intro ds
    induction ds with
    | nil => intro h e; cases e
    | cons d ds ih =>
      intro h e
      rw [RHeap.addDescendant.loop] at e
      split at e
      · split at e
        · exact ih _ e
        · exact ih _ e
      · cases e
  generalize hf : (fun q : Option Nat => (deref q).bind fun d => (roleAt d).bind fun dro => (roleAt r).bind fun ro =>
      if (ro.desc.get dro.id).isSome then ret ()
      else setRole r { ro with desc := ro.desc.set dro.id d }) = f at ha ⊢
  have hfn : f none = fail := by rw [← hf]; rfl
  have h1 : ∃ v, RV.each f (ds.map some ++ none :: rest) w = (.panic, v) ∧ (RV.each f (ds.map some) w).2 = v := by
    rw [each_append]
    cases he : RV.each f (ds.map some) w with
    | mk a v =>
      cases a with
      | ok _ => rw [bind_of he, RV.each, hfn]; exact ⟨v, rfl, rfl⟩
      | panic => rw [Rec.bind, he]; exact ⟨v, rfl, rfl⟩
      | diverge =>
        rw [he] at ha
        cases hx : RHeap.addDescendant.loop r w.heap ds with
        | ok x => rw [hx] at ha; cases ha
        | panic => rw [hx] at ha; cases ha
        | diverge => exact absurd hx (hn _ _)
  obtain ⟨v, h1, h2⟩ := h1
  refine ⟨by rw [Rec.bind, h1], ?_⟩
  rw [Rec.bind, h1, Rec.bind]
  cases he : RV.each f (ds.map some) w with
  | mk a v' => rw [he] at h2; cases a <;> exact h2.symm


/-! ## A history -/

/-- Reading, writing and removing of invoices. -/
def exRead : Attr := ⟨str "invoice", str "GET"⟩
def exWrite : Attr := ⟨str "invoice", str "PUT"⟩
def exDrop : Attr := ⟨str "invoice", str "DELETE"⟩

/-- Tenants "a" and "b" share namespace "n"; "b" is not registered. Nil is among the principals and among the attributes. -/
def exHistory : List NCall :=
  [.newTenant (str "a"), .newTenant (str "b"), .newNamespace (str "n"), .addTenants [some 0, none], .tAddNamespace (some 0) [some 0],
   .tAddNamespace (some 1) [some 0], .tSetDefaultNamespace (some 0) (str "n"),
   .addPrincipals [some (str "p", 0), none, some (str "q", 1)],
   .newRole (str "r"), .addRoles [some 0], .roleAddPermission (some 0) (str "g") [some exRead, none],
   .roleAddPermission (some 0) (str "g") [some exWrite], .roleAddPermission (some 0) (str "g") [some exRead, none, some exDrop],
   .tAddRole (some 0) [some 0], .tAddPrincipal (some 0) (str "p") [str "r"], .tAddRole (some 1) [some 0], .tAddPrincipal (some 1) (str "p") [str "r"],
   .tSetDefaultNamespace none (str "n"), .tAddScopes (some 1) [some (str "s", 0), none]]

/-- A scope of "b" is put into the namespace. -/
def exScope : NCall := .tAddScopesToNamespace (some 1) (str "n") [str "s"]

/-- The calls that panic. -/
def panics (w : V1) : List NCall → List Bool
  | [] => []
  | c :: cs => (match (c.go w).1 with | .panic => true | _ => false) :: panics (c.go w).2 cs

/-- What a history leads to. -/
def left (cs : List NCall) (f : V1 → Bool) : Bool :=
  match runAll {} cs with
  | some w => f w
  | none => false

/-- `p` asks for an activity in the namespace. -/
def exAsk (a : String) : List Opt :=
  [.tenant (.str (str "a")), .namespace_ (.str (str "n")), .group (.str (str "g")), .activity (.str (str a))]

/-- C120. Seven calls panic. Tenant "a", principal "p", the second attribute and the scope of "b" stay, "q", the third attribute and the first
attempt to add attributes leave nothing; "p" is granted what it should be. -/
theorem C120_cases :
    panics {} exHistory =
      [false, false, false, true, false, false, false, true, false, false, true, false, true, false, false, false, true, true, true] ∧
    (left exHistory fun w => decide (w.principals.map (·.1) = [str "p"] ∧ w.log.length = 2 ∧ w.tobjs.map (·.managed) = [true, false] ∧
      w.heap.groups.map (fun g => g.perms.map (·.2)) = [[exWrite, exRead]] ∧ w.tobjs.map (fun t => t.scopes.map (·.1)) = [[], [str "s"]])) = true ∧
    (left exHistory fun w => decide (w.authorize .fwd 9 [] (str "p") (exAsk "invoice GET") = .ok true)) = true ∧
    (left exHistory fun w => decide (w.authorize .fwd 9 [] (str "p") (exAsk "invoice DELETE") = .ok false)) = true :=
  ⟨by decide +kernel, by decide +kernel, by decide +kernel, by decide +kernel⟩

/-- Role "r" inherits from "d", which may remove invoices. -/
def exInherit : List NCall := [.newRole (str "d"), .roleAddPermission (some 1) (str "g") [some exDrop], .roleAddDescendent (some 0) [some 1]]

/-- C120. A call that panics can give access: in tenant "a" what "r" inherits from "d" does not count, and `p` is refused; the scope tenant "b"
leaves in the shared namespace empties the list of roles that count, and then all do (C42). -/
theorem C120_given :
    (left (exHistory ++ exInherit) fun w => decide (w.authorize .fwd 9 [] (str "p") (exAsk "invoice DELETE") = .ok false) && (match exScope.go w with
      | (.panic, v) => decide (v.nsobjs.map (fun n => n.scopes.map (·.1)) = [[str "s"]] ∧ v.log = w.log ∧ v.tobjs.length = w.tobjs.length ∧
          v.authorize .fwd 9 [] (str "p") (exAsk "invoice GET") = .ok true ∧
          v.authorize .rev 9 [] (str "p") (exAsk "invoice DELETE") = .ok true)
      | _ => false)) = true := by decide +kernel

end RV
end Verif
