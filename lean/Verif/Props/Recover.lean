import Verif.Model.Recover
import Verif.Props.AuthDuring

/-!
# What a recovered panic leaves (C118)
-/

namespace Verif
namespace RP
open Spec AD
variable {α β : Type} {w w' v : Mgr}

/-! ## Calls that return -/

/-- A call that returns; `link` is the first half of `AddDescendant` (tenant.go:42-44). -/
def Call.apply (w : Mgr) : AD.Call → Out Mgr
  | .call op => op.apply w
  | .link c d => linkOnly w c d

def runCalls (w : Mgr) : List AD.Call → Out Mgr
  | [] => .ok w
  | c :: cs => (Call.apply w c).bind fun w' => runCalls w' cs

/-- Calls that return lead from `w` to `w'`. -/
def AsIf (w w' : Mgr) : Prop := ∃ cs, runCalls w cs = .ok w'

theorem AsIf.refl (w : Mgr) : AsIf w w := ⟨[], rfl⟩

theorem AsIf.trans (h1 : AsIf w w') (h2 : AsIf w' v) : AsIf w v := by
  obtain ⟨c1, e1⟩ := h1
  obtain ⟨c2, e2⟩ := h2
  refine ⟨c1 ++ c2, ?_⟩
  induction c1 generalizing w with
  | nil => cases e1; exact e2
  | cons c cs ih =>
    rw [runCalls, Out.bind_eq_ok] at e1
    obtain ⟨u, h1, h2⟩ := e1
    rw [List.cons_append, runCalls, h1]
    exact ih h2

theorem AsIf.one {op : MOp} (h : op.apply w = .ok w') : AsIf w w' := ⟨[.call op], by rw [runCalls, Call.apply, h]; rfl⟩

theorem AsIf.link {c d : Nat} (h : linkOnly w c d = .ok w') : AsIf w w' := ⟨[.link c d], by rw [runCalls, Call.apply, h]; rfl⟩

theorem AsIf.inv (inv : w.Inv) (h : AsIf w w') : w'.Inv := by
  obtain ⟨cs, h⟩ := h
  induction cs generalizing w with
  | nil => cases h; exact inv
  | cons c cs ih =>
    rw [runCalls, Out.bind_eq_ok] at h
    obtain ⟨u, h1, h2⟩ := h
    cases c with
    | call op => exact ih (MOp.apply_inv inv h1) h2
    | link c d => exact ih (link_inv inv h1).1 h2

/-! ## Computations -/

/-- What is left is what calls that return leave. -/
def Fine (x : Rec α) (w : Mgr) : Prop := AsIf w (x w).2

@[simp] theorem ret_apply (a : α) : ret a w = (.ok a, w) := rfl
@[simp] theorem fail_apply : (fail : Rec α) w = (.panic, w) := rfl
@[simp] theorem ret_bind (a : α) (f : α → Rec β) : (ret a).bind f = f a := rfl
@[simp] theorem fail_bind (f : α → Rec β) : (fail : Rec α).bind f = fail := rfl
@[simp] theorem deref_some (a : α) : deref (some a) = ret a := rfl
@[simp] theorem deref_none : (deref (none : Option α)) = fail := rfl
@[simp] theorem read_bind (f : Mgr → α) (k : α → Rec β) : ((read f).bind k) w = k (f w) w := rfl
@[simp] theorem write_apply (f : Mgr → Mgr) : write f w = (.ok (), f w) := rfl
@[simp] theorem write_bind (f : Mgr → Mgr) (k : Unit → Rec β) : ((write f).bind k) w = k () (f w) := rfl
@[simp] theorem look_apply (f : Mgr → Out α) : look f w = (f w, w) := rfl
theorem look_bind (f : Mgr → Out α) (k : α → Rec β) : ((look f).bind k) w =
    match f w with | .ok a => k a w | .panic => (.panic, w) | .diverge => (.diverge, w) := rfl

theorem tenantAt_bind {c : Nat} {k : TenantObj → Rec β} : ((tenantAt c).bind k) w =
    match w.tobjs[c]? with | some t => k t w | none => (.panic, w) := by
  rw [tenantAt, look_bind]; cases w.tobjs[c]? <;> rfl
theorem roleAt_bind {r : Nat} {k : RoleObj → Rec β} : ((roleAt r).bind k) w =
    match w.heap.roles[r]? with | some ro => k ro w | none => (.panic, w) := by
  rw [roleAt, look_bind]; cases w.heap.roles[r]? <;> rfl
theorem groupAt_bind {g : Nat} {k : GroupObj → Rec β} : ((groupAt g).bind k) w =
    match w.heap.groups[g]? with | some x => k x w | none => (.panic, w) := by
  rw [groupAt, look_bind]; cases w.heap.groups[g]? <;> rfl

theorem Rec.bind_ok {x : Rec α} {f : α → Rec β} {a : α} (h : (x w).1 = .ok a) : (x.bind f) w = f a (x w).2 := by
  simp only [Rec.bind, h]

theorem Fine.bind {x : Rec α} {f : α → Rec β} (h : Fine x w) (hf : ∀ a, (x w).1 = .ok a → Fine (f a) (x w).2) : Fine (x.bind f) w := by
  unfold Fine Rec.bind
  cases e : (x w).1 with
  | ok a => exact AsIf.trans h (hf a e)
  | panic => exact h
  | diverge => exact h

theorem Fine.read {f : Mgr → α} {k : α → Rec β} (h : Fine (k (f w)) w) : Fine ((RP.read f).bind k) w := h

theorem Fine.look {f : Mgr → Out α} {k : α → Rec β} (h : ∀ a, f w = .ok a → Fine (k a) w) : Fine ((RP.look f).bind k) w :=
  Fine.bind (.refl w) h

theorem Fine.deref {p : Option α} {k : α → Rec β} (h : ∀ a, p = some a → Fine (k a) w) : Fine ((RP.deref p).bind k) w := by
  cases p with
  | none => exact .refl w
  | some a => exact h a rfl

theorem Fine.ret (a : α) : Fine (RP.ret a) w := .refl w

theorem Fine.drop {x : Rec α} (h : Fine x w) : Fine x.drop w := h.bind fun _ _ => .refl _

theorem Fine.each {f : α → Rec Unit} {l : List α} (inv : w.Inv) (h : ∀ x ∈ l, ∀ w : Mgr, w.Inv → Fine (f x) w) : Fine (RP.each f l) w := by
  induction l generalizing w with
  | nil => exact .refl w
  | cons x l ih =>
    have hx := h x (List.mem_cons_self ..) w inv
    exact hx.bind fun _ _ => ih (AsIf.inv inv hx) fun y hy => h y (List.mem_cons_of_mem _ hy)

/-- How a computation that changes nothing when it panics ends. -/
def whole (s : Out (α × Mgr)) (w : Mgr) : Out α × Mgr :=
  match s with
  | .ok x => (.ok x.1, x.2)
  | .panic => (.panic, w)
  | .diverge => (.diverge, w)

theorem Fine.whole {x : Rec α} {s : Out (α × Mgr)} {op : MOp} (h : x w = RP.whole s w) (hs : op.apply w = s.map (·.2)) : Fine x w := by
  unfold Fine
  rw [h]
  cases s with
  | ok x => exact .one hs
  | panic => exact .refl w
  | diverge => exact .refl w

/-! ## The single calls -/

theorem store_eq {get : Mgr → GoMap Str Nat} {set : Mgr → GoMap Str Nat → Mgr} {id : Str} {obj : Nat} (hs : set w (get w) = w) :
    store get set id obj w = (.ok (), set w (register (get w) id obj).2) := by
  rw [store, register, read_bind]
  cases (get w).get id <;> simp [hs]

theorem addTenant_eq (a : Nat) : addTenant (some a) w = whole ((w.addTenant a).map fun x => ((), x.2)) w := by
  rw [addTenant, Mgr.addTenant, deref_some, ret_bind, tenantAt_bind]
  cases w.tobjs[a]? with
  | none => rfl
  | some t =>
    dsimp only
    rw [write_bind]
    exact store_eq (get := (·.tenants)) (set := fun w m => { w with tenants := m }) rfl

theorem addRole_eq (r : Nat) : addRole (some r) w = whole ((w.addRole r).map fun x => ((), x.2)) w := by
  rw [addRole, Mgr.addRole, deref_some, ret_bind, roleAt_bind]
  cases w.heap.roles[r]? with
  | none => rfl
  | some t => exact store_eq rfl

theorem addAttributeGroup_eq (g : Nat) : addAttributeGroup (some g) w = whole ((w.addAttributeGroup g).map fun x => ((), x.2)) w := by
  rw [addAttributeGroup, Mgr.addAttributeGroup, deref_some, ret_bind, groupAt_bind]
  cases w.heap.groups[g]? with
  | none => rfl
  | some t => exact store_eq rfl

theorem addNamespace_eq (x : Str × Nat) : addNamespace (some x) w = (.ok (), (w.addNamespace x.1 x.2).2) :=
  store_eq (get := (·.namespaces)) (set := fun w m => { w with namespaces := m }) rfl
theorem addScope_eq (x : Str × Nat) : addScope (some x) w = (.ok (), (w.addScope x.1 x.2).2) :=
  store_eq (get := (·.scopes)) (set := fun w m => { w with scopes := m }) rfl
theorem addPrincipal_eq (x : Str × Nat) : addPrincipal (some x) w = (.ok (), (w.addPrincipal x.1 x.2).2) :=
  store_eq (get := (·.principals)) (set := fun w m => { w with principals := m }) rfl
theorem addAttribute_eq (x : Attr × Nat) : addAttribute (some x) w = (.ok (), (w.addAttribute x.1 x.2).2) :=
  store_eq (get := (·.attributes)) (set := fun w m => { w with attributes := m }) rfl

theorem addData_eq (d : Data) : addData (some d) w = whole ((w.addData d).map fun w => ((), w)) w := by
  simp only [addData]
  cases w.addData d <;> rfl

theorem managed_eq (c : Nat) {k : TenantObj → Rec α} : ((managed (some c)).bind k) w =
    match w.tobjs[c]? with
    | none => (.panic, w)
    | some t => if t.managed then k t w else (.panic, w) := by
  rw [managed, deref_some, ret_bind, Rec.bind, tenantAt_bind]
  cases w.tobjs[c]? with
  | none => rfl
  | some t => by_cases h : t.managed <;> simp [h]

theorem managed_none {k : TenantObj → Rec α} : ((managed none).bind k) w = (.panic, w) := rfl

theorem row_eq {c : Nat} {row : TenantObj → Data} :
    ((managed (some c)).bind fun t => addData (some (row t))) w = whole ((w.withTenant c fun t => w.addData (row t)).map fun w => ((), w)) w := by
  rw [managed_eq, Mgr.withTenant]
  cases w.tobjs[c]? with
  | none => rfl
  | some t =>
    by_cases h : t.managed
    · simp only [h, if_true]; exact addData_eq _
    · simp [h, whole, Out.map]

theorem setDefault_eq {c : Nat} {n : Str} :
    tSetDefaultNamespace (some c) n w = whole ((w.tSetDefaultNamespace c n).map fun w => ((), w)) w := by
  rw [tSetDefaultNamespace, managed_eq, Mgr.tSetDefaultNamespace, Mgr.withTenant]
  cases w.tobjs[c]? with
  | none => rfl
  | some t =>
    by_cases h : t.managed
    · by_cases hn : (w.namespaces.get n).isSome <;> simp [h, hn, whole, Out.map]
    · simp [h, whole, Out.map]

theorem link_eq (c d : Nat) : link (some c) (some d) w = whole ((linkOnly w c d).map fun w => ((), w)) w := by
  rw [link, linkOnly, deref_some, ret_bind, deref_some, ret_bind, tenantAt_bind]
  cases w.tobjs[c]? with
  | none => rfl
  | some ct =>
    dsimp only
    rw [tenantAt_bind]
    cases w.tobjs[d]? with
    | none => rfl
    | some dt => by_cases h : (ct.desc.get dt.id).isSome <;> simp [h, whole, Out.map]

theorem lock_eq (r : Nat) (b : Bool) : roleLock (some r) b w = whole ((w.heap.setLock r b).map fun h => ((), { w with heap := h })) w := by
  rw [roleLock, RHeap.setLock, deref_some, ret_bind, roleAt_bind]
  cases w.heap.roles[r]? <;> rfl

theorem addGroup_eq (r ga : Nat) (hg : ga < w.heap.groups.length) :
    roleAddGroup (some r) (some ga) w = whole ((w.heap.addPermissionResourceGroup r ga).map fun x => (x.1, { w with heap := x.2 })) w := by
  rw [roleAddGroup, RHeap.addPermissionResourceGroup, deref_some, ret_bind, roleAt_bind]
  cases w.heap.roles[r]? with
  | none => rfl
  | some ro =>
    rw [List.getElem?_eq_getElem hg]
    dsimp only
    by_cases hl : ro.lock
    · simp [hl, whole, Out.map]
    · simp only [hl, Bool.false_eq_true, if_false]
      rw [deref_some, ret_bind, groupAt_bind, List.getElem?_eq_getElem hg]
      dsimp only
      split <;> rfl

theorem addData_ok (inv : w.Inv) (d : Data) : ∃ w1, w.addData d = .ok w1 ∧ w1.tobjs = w.tobjs ∧ w1.Inv := by
  obtain ⟨w1, h, i⟩ := Inserted.one inv d
  exact ⟨w1, h, by rw [i], inv.addData h⟩

theorem grant_eq (inv : w.Inv) {c : Nat} {p x : Str} {get : Mgr → GoMap Str Nat} {err : Err} {row : Str → Val → Data} :
    grant (some c) p get err x row w = whole (w.withTenant c fun t =>
      if (w.principals.get p).isNone then .ok (some .noPrincipal, w)
      else if ((get w).get x).isNone then .ok (some err, w)
      else (w.addData (row t.id .nil)).bind fun w1 =>
        match t.defNs with
        | none => .ok (none, w1)
        | some n => (w1.addData (row t.id (.str n))).map fun w2 => (none, w2)) w := by
  rw [grant, managed_eq, Mgr.withTenant]
  cases ht : w.tobjs[c]? with
  | none => rfl
  | some t =>
    by_cases h : t.managed
    · simp only [h, if_true, read_bind]
      by_cases h1 : (w.principals.get p).isNone
      · simp [h1, whole]
      by_cases h2 : ((get w).get x).isNone
      · simp [h1, h2, whole]
      simp only [h1, h2, Bool.false_eq_true, if_false, read_bind]
      obtain ⟨w1, e1, t1, i1⟩ := addData_ok inv (row t.id .nil)
      rw [Rec.bind, addData_eq, e1]
      simp only [Out.map, whole, Out.bind]
      rw [managed_eq, t1, ht]
      simp only [h, if_true]
      cases t.defNs with
      | none => rfl
      | some n =>
        obtain ⟨w2, e2, _, _⟩ := addData_ok i1 (row t.id (.str n))
        dsimp only
        rw [Rec.bind, addData_eq, e2]
        rfl
    · simp [h, whole]

theorem withRole_eq (inv : w.Inv) {c : Nat} {p r : Str} {m : Bool} : withRole (some c) p m r w = whole (w.tAddPrincipalWithRole c p r m) w :=
  grant_eq inv

theorem withScope_eq (inv : w.Inv) {c : Nat} {p s : Str} {m : Bool} : withScope (some c) p m s w = whole (w.tAddScopeToPrincipal c p s m) w :=
  grant_eq inv

theorem children_eq {o : Ord} {fuel : Nat} {site : List Val} {id : Str} :
    tenantChildren o fuel site id w = whole (w.tenantChildren o fuel site id) w := by
  rw [tenantChildren, Mgr.tenantChildren, read_bind]
  cases w.hierarchy.get id with
  | some h => rfl
  | none =>
    dsimp only
    rw [read_bind]
    cases w.tenants.get id with
    | none => rfl
    | some c =>
      dsimp only
      rw [look_bind]
      cases w.descendants o fuel site c <;> rfl

/-! ## Ending as described -/

/-- The computation ends as described by `s`; what it leaves when it panics is not described by `s`. -/
def Agrees (r : Out α × Mgr) (s : Out (α × Mgr)) : Prop :=
  match s with
  | .ok x => r = (.ok x.1, x.2)
  | .panic => r.1 = .panic
  | .diverge => r.1 = .diverge

theorem Agrees.whole (s : Out (α × Mgr)) : Agrees (RP.whole s w) s := by
  cases s <;> rfl

theorem Agrees.ok {r : Out α × Mgr} {s : Out (α × Mgr)} (h : Agrees r s) {a : α} (e : r.1 = .ok a) : s = .ok (a, r.2) := by
  unfold Agrees at h
  cases s with
  | ok x => rw [h] at e ⊢; cases e; rfl
  | panic => rw [h] at e; cases e
  | diverge => rw [h] at e; cases e

theorem Agrees.bind {x : Rec α} {s : Out (α × Mgr)} (h : Agrees (x w) s) {f : α → Rec β} {g : α × Mgr → Out (β × Mgr)}
    (hf : ∀ a w', x w = (.ok a, w') → s = .ok (a, w') → Agrees (f a w') (g (a, w'))) : Agrees (x.bind f w) (s.bind g) := by
  unfold Rec.bind
  cases s with
  | ok y => rw [show x w = _ from h]; exact hf y.1 y.2 h rfl
  | panic => rw [show (x w).1 = _ from h]; rfl
  | diverge => rw [show (x w).1 = _ from h]; rfl

theorem Agrees.look {f : Mgr → Out α} {k : α → Rec β} {g : α → Out (β × Mgr)} (h : ∀ a, f w = .ok a → Agrees (k a w) (g a)) :
    Agrees ((RP.look f).bind k w) ((f w).bind g) := by
  rw [look_bind]
  cases hf : f w with
  | ok a => exact h a hf
  | panic => rfl
  | diverge => rfl

theorem Agrees.drop {x : Rec α} {s : Out (α × Mgr)} (h : Agrees (x w) s) : Agrees (x.drop w) (s.map fun y => ((), y.2)) := by
  unfold Rec.drop Rec.bind
  cases s with
  | ok y => rw [show x w = _ from h]; rfl
  | panic => rw [show (x w).1 = _ from h]; rfl
  | diverge => rw [show (x w).1 = _ from h]; rfl

theorem loop_agrees {o : Ord} {fuel : Nat} {site : List Val} {rows : List Data} {i : Nat} {E : List Str} :
    Agrees (implicitLoop o fuel site i rows E w) (Mgr.implicitLoop o fuel site i rows E w) := by
  induction rows generalizing i E w with
  | nil => rfl
  | cons row rows ih =>
    rw [implicitLoop, Mgr.implicitLoop]
    cases row.tenant with
    | str t =>
      dsimp only
      by_cases h : t ∈ E
      · rw [if_pos h, if_pos h]; exact ih
      rw [if_neg h, if_neg h]
      by_cases hm : row.manage = .bool true
      · rw [if_pos hm, if_pos hm]
        refine Agrees.bind (by rw [children_eq]; exact .whole _) fun x w' _ _ => Agrees.look fun E' _ => ih
      · rw [if_neg hm, if_neg hm]; exact ih
    | nil => rfl
    | bool b => rfl
    | int z => rfl

theorem implicit_agrees {o : Ord} {fuel : Nat} {site : List Val} {p : Str} :
    Agrees (implicitTenants o fuel site p w) (w.implicitTenants o fuel site p) := by
  rw [implicitTenants, Mgr.implicitTenants, read_bind]
  cases w.pcache.get p with
  | some I => rfl
  | none =>
    dsimp only
    rw [read_bind]
    exact Agrees.bind (g := fun x => .ok (x.1, { x.2 with pcache := x.2.pcache.set p x.1 })) loop_agrees fun E w' _ _ => rfl

theorem authorize_agrees {o : Ord} {fuel : Nat} {site : List Val} {p : Str} {opts : List Opt} :
    Agrees (authorize o fuel site p (opts.map some) w) (w.authorize o fuel site p opts) := by
  have hd : derefAll (opts.map some) = .ok opts := by
    induction opts with
    | nil => rfl
    | cons a l ih => rw [List.map_cons, derefAll, ih]; rfl
  rw [authorize, Mgr.authorize, read_bind]
  cases (w.principals.get p).isNone with
  | true => rfl
  | false =>
    simp only [Bool.false_eq_true, if_false]
    rw [look_bind, hd]
    dsimp only
    refine Agrees.bind implicit_agrees fun I w' _ _ => ?_
    by_cases hI : I.length = 0
    · simp [hI, Agrees]
    simp only [hI, if_false]
    refine Agrees.look fun v _ => ?_
    cases v with
    | false => rfl
    | true =>
      refine Agrees.look fun b _ => ?_
      cases b with
      | true => rfl
      | false =>
        simp only [Bool.false_eq_true, if_false, look_apply]
        cases w'.fallback o fuel (site ++ [.int 2]) p (flagsOf (opts.foldl Opt.apply {})) 0 (opts.foldl Opt.apply {})
          (o.ord (site ++ [.int 3]) Str I) <;> rfl

/-! ## Every call is fine -/

theorem Fine.loop {o : Ord} {fuel : Nat} {site : List Val} {rows : List Data} {i : Nat} {E : List Str} :
    Fine (implicitLoop o fuel site i rows E) w := by
  induction rows generalizing i E w with
  | nil => exact .refl w
  | cons row rows ih =>
    rw [implicitLoop]
    cases row.tenant with
    | str t =>
      dsimp only
      split
      · exact ih
      split
      · exact Fine.bind (Fine.whole (op := .tenantChildren o fuel (site ++ [.int i]) t) children_eq rfl) fun x _ => Fine.look fun E' _ => ih
      · exact ih
    | nil => exact .refl w
    | bool b => exact .refl w
    | int z => exact .refl w

theorem Fine.implicit {o : Ord} {fuel : Nat} {site : List Val} {p : Str} : Fine (implicitTenants o fuel site p) w := by
  rw [RP.implicitTenants]
  refine Fine.read ?_
  cases hp : w.pcache.get p with
  | some I => exact .refl w
  | none =>
    refine Fine.read ?_
    unfold Fine Rec.bind
    cases hl : (implicitLoop o fuel (site ++ [.int 1]) 0 (w.search o (site ++ [.int 0]) { principal := .str p } filterTenantsByPrincipal) [] w).1 with
    | ok E =>
      refine AsIf.one (op := .implicitTenants o fuel site p) ?_
      rw [MOp.apply, Mgr.implicitTenants, hp]
      simp only
      rw [loop_agrees.ok hl]
      rfl
    | panic => exact Fine.loop
    | diverge => exact Fine.loop

theorem Fine.authorize {o : Ord} {fuel : Nat} {site : List Val} {p : Str} {opts : List (Option Opt)} : Fine (authorize o fuel site p opts) w := by
  rw [RP.authorize]
  refine Fine.read ?_
  split
  · exact .refl w
  refine Fine.look fun opts _ => Fine.bind Fine.implicit fun I _ => ?_
  split
  · exact .refl _
  refine Fine.look fun v _ => ?_
  split
  · exact .refl _
  refine Fine.look fun b _ => ?_
  split <;> exact .refl _

theorem Fine.eachP {P : Mgr → Prop} {f : α → Rec Unit} {l : List α} (h : ∀ x ∈ l, ∀ w, P w → Fine (f x) w ∧ P (f x w).2) (hw : P w) :
    Fine (RP.each f l) w ∧ P (RP.each f l w).2 := by
  induction l generalizing w with
  | nil => exact ⟨.refl w, hw⟩
  | cons x l ih =>
    obtain ⟨h1, h2⟩ := h x (List.mem_cons_self ..) w hw
    have ih := ih (fun y hy => h y (List.mem_cons_of_mem _ hy)) h2
    refine ⟨h1.bind fun _ _ => ih.1, ?_⟩
    unfold RP.each Rec.bind
    cases (f x w).1 with
    | ok a => exact ih.2
    | panic => exact h2
    | diverge => exact h2

theorem set_same {κ ν : Type} [DecidableEq κ] {m : GoMap κ ν} {k : κ} {x : ν} (h : m.get k = some x) : m.set k x = m := by
  induction m with
  | nil => cases h
  | cons e m ih =>
    rw [GoMap.get] at h
    rw [GoMap.set]
    split at h
    · rename_i he; rw [if_pos he]; cases h; rw [← he]
    · rename_i he; rw [if_neg he, ih h]

theorem setList_same {l : List α} {i : Nat} {x : α} (h : l[i]? = some x) : l.set i x = l := by
  obtain ⟨hi, rfl⟩ := List.getElem?_eq_some_iff.1 h
  exact List.set_getElem_self hi

/-- The role is there and not locked. -/
def Open (r : Nat) (w : Mgr) : Prop := ∃ ro, w.heap.roles[r]? = some ro ∧ ro.lock = false

theorem Fine.roleDescendant {p : Option Nat} {ds : List (Option Nat)} : Fine (roleAddDescendant p ds) w := by
  rw [roleAddDescendant]
  refine Fine.deref fun r _ => ?_
  unfold Fine
  rw [roleAt_bind]
  cases hr : w.heap.roles[r]? with
  | none => exact .refl w
  | some ro =>
    dsimp only
    cases hl : ro.lock with
    | true => exact .refl w
    | false =>
      simp only [Bool.false_eq_true, if_false]
      refine Fine.bind (Fine.eachP (P := Open r) (fun q _ w ⟨ro, hr, hl⟩ => ?_) ⟨ro, hr, hl⟩).1 fun _ _ => .refl _
      cases q with
      | none => exact ⟨.refl w, ro, hr, hl⟩
      | some d =>
        unfold Fine
        rw [deref_some, ret_bind, roleAt_bind]
        cases hd : w.heap.roles[d]? with
        | none => exact ⟨.refl w, ro, hr, hl⟩
        | some dro =>
          dsimp only
          rw [roleAt_bind, hr]
          dsimp only
          split
          · exact ⟨.refl w, ro, hr, hl⟩
          · rename_i hn
            refine ⟨AsIf.one (op := .role (.addDesc r [d])) ?_, { ro with desc := ro.desc.set dro.id d }, ?_, hl⟩
            · rw [MOp.apply, RoleOp.apply, RHeap.addDescendant, hr]
              simp only [hl, Bool.false_eq_true, if_false, RHeap.addDescendant.loop, hd, hr, hn]
              rfl
            · simp only [setRole, write_apply]
              exact List.getElem?_set_self (RHeap.lt_of_get hr)

theorem Fine.roleLock {p : Option Nat} {b : Bool} : Fine (roleLock p b) w := by
  cases p with
  | none => exact .refl w
  | some r => exact Fine.whole (op := .role (.lock r b)) (lock_eq r b) (by rw [MOp.apply, RoleOp.apply]; cases w.heap.setLock r b <;> rfl)

theorem Fine.roleGroup {p q : Option Nat} : Fine (roleAddGroup p q) w := by
  rw [roleAddGroup]
  refine Fine.deref fun r _ => ?_
  unfold Fine
  rw [roleAt_bind]
  cases hr : w.heap.roles[r]? with
  | none => exact .refl w
  | some ro =>
    dsimp only
    cases hl : ro.lock with
    | true => exact .refl w
    | false =>
      simp only [Bool.false_eq_true, if_false]
      refine Fine.deref fun ga _ => ?_
      unfold Fine
      rw [groupAt_bind]
      cases hg : w.heap.groups[ga]? with
      | none => exact .refl w
      | some g =>
        dsimp only
        split
        · exact .refl w
        · rename_i hn
          refine AsIf.one (op := .role (.addGroup r ga)) ?_
          rw [MOp.apply, RoleOp.apply, RHeap.addPermissionResourceGroup, hr, hg]
          simp [hl, hn, Out.map, setRole]

/-- The role is there, not locked, and has the group. -/
def Holds (r ga : Nat) (group : Str) (w : Mgr) : Prop :=
  ∃ ro g, w.heap.roles[r]? = some ro ∧ ro.lock = false ∧ ro.perms.get group = some ga ∧ w.heap.groups[ga]? = some g

theorem Fine.rolePermission {p : Option Nat} {group : Str} {as : List (Option Attr)} (inv : w.Inv) : Fine (roleAddPermission p group as) w := by
  rw [roleAddPermission]
  refine Fine.deref fun r _ => ?_
  unfold Fine
  rw [roleAt_bind]
  cases hr : w.heap.roles[r]? with
  | none => exact .refl w
  | some ro =>
    dsimp only
    cases hl : ro.lock with
    | true => exact .refl w
    | false =>
      simp only [Bool.false_eq_true, if_false]
      cases hg : ro.perms.get group with
      | none =>
        refine Fine.look fun as' _ => ?_
        refine AsIf.one (op := .role (.addPerm r group as')) ?_
        rw [MOp.apply, RoleOp.apply, RHeap.addPermission, hr]
        simp [hl, hg, Out.map]
      | some ga =>
        obtain ⟨g, hga⟩ : ∃ g, w.heap.groups[ga]? = some g := by
          have := inv.heap.perms ro (List.mem_of_getElem? hr) _ (GoMap.get_some_mem hg)
          exact ⟨_, List.getElem?_eq_getElem this⟩
        obtain ⟨f1, f2⟩ := Fine.eachP (P := Holds r ga group) (f := keepAttr ga) (l := as) (fun q _ w ⟨ro, g, hr, hl, hg, hga⟩ => by
          cases q with
          | none => exact ⟨.refl w, ro, g, hr, hl, hg, hga⟩
          | some a =>
            unfold Fine keepAttr
            rw [deref_some, ret_bind, groupAt_bind, hga]
            dsimp only
            split
            · exact ⟨.refl w, ro, g, hr, hl, hg, hga⟩
            · rename_i hn
              refine ⟨AsIf.one (op := .role (.addPerm r group [a])) ?_, ro, _, hr, hl, hg, List.getElem?_set_self (RHeap.lt_of_get hga)⟩
              rw [MOp.apply, RoleOp.apply, RHeap.addPermission, hr]
              have e : ({ ro with perms := ro.perms.set group ga } : RoleObj) = ro := by rw [set_same hg]
              simp only [hl, Bool.false_eq_true, if_false, hg, hga, RHeap.addAttrsKeep, hn]
              simp only [hl] at e
              rw [e, setList_same hr]
              rfl) ⟨ro, g, hr, hl, hg, hga⟩
        refine Fine.bind f1 fun _ _ => ?_
        obtain ⟨ro', g', hr', hl', hg', hga'⟩ := f2
        unfold Fine
        rw [roleAt_bind, hr']
        dsimp only
        rw [setRole, write_bind, ret_apply, set_same hg', setList_same hr']
        exact .refl _

theorem Fine.groupAttributes {p : Option Nat} {as : List (Option Attr)} (inv : w.Inv) : Fine (groupAddAttributes p as) w := by
  refine Fine.each inv fun q _ w _ => Fine.deref fun a _ => Fine.deref fun ga _ => ?_
  unfold Fine
  rw [groupAt_bind]
  cases hg : w.heap.groups[ga]? with
  | none => exact .refl w
  | some g => exact AsIf.one (op := .role (.addAttrs ga [a])) (by rw [MOp.apply, RoleOp.apply, RHeap.groupAddAttributes, hg]; rfl)

theorem Fine.toRole {role group : Str} {as : List (Option Attr)} (inv : w.Inv) : Fine (addPermissionsToRole role group as) w := by
  rw [addPermissionsToRole]
  refine Fine.read ?_
  split
  · exact .refl w
  refine Fine.read ?_
  split
  · exact .refl w
  unfold Fine
  rw [groupAt_bind]
  split
  · refine Fine.look fun b _ => ?_
    split
    · exact Fine.rolePermission inv
    · exact .refl w
  · exact .refl w

theorem Fine.data {d : Option Data} : Fine (addData d) w := by
  cases d with
  | none => exact .refl w
  | some d => exact Fine.whole (op := .addData d) (addData_eq d) (by rw [MOp.apply]; cases w.addData d <;> rfl)

theorem Fine.row {c : Option Nat} {row : TenantObj → Data} : Fine ((managed c).bind fun t => addData (some (row t))) w := by
  cases c with
  | none => exact .refl w
  | some c =>
    unfold Fine
    rw [managed_eq]
    split
    · exact .refl w
    · split
      · exact Fine.data
      · exact .refl w

theorem Fine.rowOf {c : Option Nat} {x : Option α} {row : TenantObj → α → Data} :
    Fine ((managed c).bind fun t => (RP.deref x).bind fun a => addData (some (row t a))) w := by
  cases x with
  | none =>
    cases c with
    | none => exact .refl w
    | some c =>
      unfold Fine
      rw [managed_eq]
      split
      · exact .refl w
      · split <;> exact .refl w
  | some a => exact Fine.row

theorem Fine.setDefault {c : Option Nat} {n : Str} : Fine (tSetDefaultNamespace c n) w := by
  cases c with
  | none => exact .refl w
  | some c => exact Fine.whole (op := .tSetDefaultNamespace c n) setDefault_eq (by rw [MOp.apply]; cases w.tSetDefaultNamespace c n <;> rfl)

theorem Fine.link {p q : Option Nat} : Fine (link p q) w := by
  refine Fine.deref fun c hc => ?_
  subst hc
  cases q with
  | none => exact .refl w
  | some d =>
    show AsIf w (RP.link (some c) (some d) w).2
    rw [link_eq]
    cases h : linkOnly w c d with
    | ok x => exact .link h
    | panic => exact .refl w
    | diverge => exact .refl w

theorem Fine.descendant {p : Option Nat} {ds : List (Option Nat)} (inv : w.Inv) : Fine (tAddDescendant p ds) w := by
  refine Fine.each inv fun q _ w _ => Fine.bind Fine.link fun _ _ => Fine.deref fun c _ => ?_
  generalize (RP.link p q w).2 = w
  unfold Fine
  rw [tenantAt_bind]
  cases w.tobjs[c]? with
  | none => exact .refl w
  | some ct =>
    dsimp only
    cases ct.defNs with
    | none => exact .refl w
    | some n => exact Fine.bind Fine.rowOf fun _ _ => Fine.setDefault

theorem Fine.grants {f : Str → Rec (Option Err)} {l : List Str} (inv : w.Inv) (h : ∀ x ∈ l, ∀ w : Mgr, w.Inv → Fine (f x) w) : Fine (RP.grants f l) w := by
  induction l generalizing w with
  | nil => exact .refl w
  | cons x l ih =>
    have hx := h x (List.mem_cons_self ..) w inv
    refine hx.bind fun e _ => ?_
    cases e with
    | some e => exact .refl _
    | none => exact ih (AsIf.inv inv hx) fun y hy => h y (List.mem_cons_of_mem _ hy)

theorem Fine.go (c : NCall) (inv : w.Inv) : Fine c.go w := by
  cases c with
  | newRole id => exact AsIf.one (op := .role (.newRole id)) rfl
  | newGroup id => exact AsIf.one (op := .role (.newGroup id)) rfl
  | newTenant id => exact AsIf.one (op := .newTenant id) rfl
  | addTenants l =>
    refine Fine.each inv fun q _ w _ => ?_
    cases q with
    | none => exact .refl w
    | some a => exact Fine.whole (op := .addTenant a) (addTenant_eq a) (by rw [MOp.apply]; cases w.addTenant a <;> rfl)
  | addNamespaces l =>
    refine Fine.each inv fun q _ w _ => ?_
    cases q with
    | none => exact .refl w
    | some x => exact AsIf.one (op := .addNamespace x.1 x.2) (by rw [addNamespace_eq]; rfl)
  | addScopes l =>
    refine Fine.each inv fun q _ w _ => ?_
    cases q with
    | none => exact .refl w
    | some x => exact AsIf.one (op := .addScope x.1 x.2) (by rw [addScope_eq]; rfl)
  | addPrincipals l =>
    refine Fine.each inv fun q _ w _ => ?_
    cases q with
    | none => exact .refl w
    | some x => exact AsIf.one (op := .addPrincipal x.1 x.2) (by rw [addPrincipal_eq]; rfl)
  | addAttributes l =>
    refine Fine.each inv fun q _ w _ => ?_
    cases q with
    | none => exact .refl w
    | some x => exact AsIf.one (op := .addAttribute x.1 x.2) (by rw [addAttribute_eq]; rfl)
  | addRoles l =>
    refine Fine.each inv fun q _ w _ => ?_
    cases q with
    | none => exact .refl w
    | some a => exact Fine.whole (op := .addRole a) (addRole_eq a) (by rw [MOp.apply]; cases w.addRole a <;> rfl)
  | addAttributeGroups l =>
    refine Fine.each inv fun q _ w _ => ?_
    cases q with
    | none => exact .refl w
    | some a => exact Fine.whole (op := .addAttributeGroup a) (addAttributeGroup_eq a) (by rw [MOp.apply]; cases w.addAttributeGroup a <;> rfl)
  | roleAddDescendant r ds => exact Fine.roleDescendant.drop
  | roleAddPermission r g as => exact (Fine.rolePermission inv).drop
  | roleAddGroup r ga => exact Fine.roleGroup.drop
  | roleLock r b => exact Fine.roleLock
  | groupAddAttributes ga as => exact Fine.groupAttributes inv
  | addPermissionsToRole r g as => exact (Fine.toRole inv).drop
  | addData d => exact Fine.data
  | tAddNamespaces c l => exact Fine.each inv fun _ _ w _ => Fine.rowOf
  | tAddRoles c l => exact Fine.each inv fun _ _ w _ => Fine.rowOf
  | tAddScopes c l => exact Fine.each inv fun _ _ w _ => Fine.rowOf
  | tAddScopesToNamespace c n s => exact Fine.row
  | tSetDefaultNamespace c n => exact Fine.setDefault
  | tAddPrincipalInNamespace c p n r => exact Fine.row
  | tAddDescendant c ds => exact Fine.descendant inv
  | tAddPrincipal c p m rs =>
    refine Fine.drop (Fine.grants inv fun r _ w iw => ?_)
    cases c with
    | none => exact .refl w
    | some c => exact Fine.whole (op := .tAddPrincipalWithRole c p r m) (withRole_eq iw) rfl
  | tAssignScopes c p m ss =>
    refine Fine.drop (Fine.grants inv fun s _ w iw => ?_)
    cases c with
    | none => exact .refl w
    | some c => exact Fine.whole (op := .tAddScopeToPrincipal c p s m) (withScope_eq iw) rfl
  | tenantChildren o fuel site id => exact Fine.drop (Fine.whole (op := .tenantChildren o fuel site id) children_eq rfl)
  | implicitTenants o fuel site p => exact Fine.implicit.drop
  | authorize o fuel site p opts => exact Fine.authorize.drop

/-! ## The sequential description -/

/-- A call of the sequential description, with pointers. -/
def ofMOp : MOp → NCall
  | .role (.newRole id) => .newRole id
  | .role (.newGroup id) => .newGroup id
  | .role (.addDesc r ds) => .roleAddDescendant (some r) (ds.map some)
  | .role (.addPerm r g as) => .roleAddPermission (some r) g (as.map some)
  | .role (.addGroup r ga) => .roleAddGroup (some r) (some ga)
  | .role (.addAttrs ga as) => .groupAddAttributes (some ga) (as.map some)
  | .role (.lock r b) => .roleLock (some r) b
  | .newTenant id => .newTenant id
  | .addTenant a => .addTenants [some a]
  | .addNamespace id obj => .addNamespaces [some (id, obj)]
  | .addScope id obj => .addScopes [some (id, obj)]
  | .addPrincipal id obj => .addPrincipals [some (id, obj)]
  | .addRole r => .addRoles [some r]
  | .addAttribute a obj => .addAttributes [some (a, obj)]
  | .addAttributeGroup ga => .addAttributeGroups [some ga]
  | .addData d => .addData (some d)
  | .tAddNamespace c n => .tAddNamespaces (some c) [some n]
  | .tAddScopesToNamespace c n s => .tAddScopesToNamespace (some c) n s
  | .tSetDefaultNamespace c n => .tSetDefaultNamespace (some c) n
  | .tAddPrincipalInNamespace c p n r => .tAddPrincipalInNamespace (some c) p n r
  | .tAddRole c r => .tAddRoles (some c) [some r]
  | .tAddScope c s => .tAddScopes (some c) [some s]
  | .tAddDescendant c ds => .tAddDescendant (some c) (ds.map some)
  | .tAddPrincipalWithRole c p r m => .tAddPrincipal (some c) p m [r]
  | .tAddPrincipal c p m rs => .tAddPrincipal (some c) p m rs
  | .tAddScopeToPrincipal c p s m => .tAssignScopes (some c) p m [s]
  | .tAssignScopes c p m ss => .tAssignScopes (some c) p m ss
  | .addPermissionsToRole r g as => .addPermissionsToRole r g (as.map some)
  | .tenantChildren o fuel site id => .tenantChildren o fuel site id
  | .implicitTenants o fuel site p => .implicitTenants o fuel site p
  | .authorize o fuel site p opts => .authorize o fuel site p (opts.map some)

/-- The group a call is given is there. -/
def GroupThere (w : Mgr) : MOp → Prop
  | .role (.addGroup _ ga) => ga < w.heap.groups.length
  | .role (.addAttrs ga _) => ga < w.heap.groups.length
  | _ => True

theorem each_one {f : α → Rec Unit} {x : α} : RP.each f [x] w = f x w := by
  show (f x).bind (fun _ => ret ()) w = f x w
  unfold Rec.bind
  cases h : f x w with
  | mk a v => cases a <;> rfl

theorem grants_one {f : Str → Rec (Option Err)} {x : Str} : (RP.grants f [x]).drop w = (f x).drop w := by
  show ((f x).bind _).drop w = _
  unfold Rec.drop Rec.bind
  cases h : f x w with
  | mk a v =>
    cases a with
    | ok e => cases e <;> rfl
    | panic => rfl
    | diverge => rfl

theorem derefAll_some {l : List α} : derefAll (l.map some) = .ok l := by
  induction l with
  | nil => rfl
  | cons a l ih => rw [List.map_cons, derefAll, ih]; rfl

theorem associated_some {g : GroupObj} {l : List Attr} : associated g (l.map some) = .ok (RHeap.allAssociated g l) := by
  induction l with
  | nil => rfl
  | cons a l ih => rw [List.map_cons, associated, RHeap.allAssociated, ih]; split <;> rfl

theorem descLoop_agrees {r : Nat} {ds : List Nat} :
    Agrees (RP.each (fun q => (deref q).bind fun d => (roleAt d).bind fun dro => (roleAt r).bind fun ro =>
      if (ro.desc.get dro.id).isSome then ret ()
      else setRole r { ro with desc := ro.desc.set dro.id d }) (ds.map some) w)
      ((RHeap.addDescendant.loop r w.heap ds).map fun h => ((), { w with heap := h })) := by
  induction ds generalizing w with
  | nil => rfl
  | cons d ds ih =>
    rw [List.map_cons, RP.each, RHeap.addDescendant.loop, deref_some, ret_bind, Rec.bind, roleAt_bind]
    cases hd : w.heap.roles[d]? with
    | none => rfl
    | some dro =>
      dsimp only
      rw [roleAt_bind]
      cases hr : w.heap.roles[r]? with
      | none => rfl
      | some ro =>
        dsimp only
        by_cases h : (ro.desc.get dro.id).isSome
        · rw [if_pos h, if_pos h]; exact ih
        · rw [if_neg h, if_neg h]
          exact ih (w := { w with heap := { w.heap with roles := w.heap.roles.set r { ro with desc := ro.desc.set dro.id d } } })

theorem roleDesc_agrees {r : Nat} {ds : List Nat} :
    Agrees (roleAddDescendant (some r) (ds.map some) w) ((w.heap.addDescendant r ds).map fun x => (x.1, { w with heap := x.2 })) := by
  rw [roleAddDescendant, RHeap.addDescendant, deref_some, ret_bind, roleAt_bind]
  cases hr : w.heap.roles[r]? with
  | none => rfl
  | some ro =>
    dsimp only
    by_cases h : ro.lock
    · rw [if_pos h, if_pos h]; rfl
    · rw [if_neg h, if_neg h]
      have hl := descLoop_agrees (w := w) (r := r) (ds := ds)
      have e : Out.map (fun x => (x.1, { w with heap := x.2 })) (Out.map (fun h => ((none : Option Err), h)) (RHeap.addDescendant.loop r w.heap ds)) =
          (Out.map (fun h => ((), { w with heap := h })) (RHeap.addDescendant.loop r w.heap ds)).bind fun y => .ok (none, y.2) := by
        cases RHeap.addDescendant.loop r w.heap ds <;> rfl
      rw [e]
      exact Agrees.bind hl fun _ _ _ _ => rfl

theorem Out.map_map {γ : Type} {x : Out α} {f : α → β} {g : β → γ} : (x.map f).map g = x.map fun a => g (f a) := by
  cases x <;> rfl

theorem bind_of {x : Rec α} {f : α → Rec β} {a : α} (h : x w = (.ok a, w')) : (x.bind f) w = f a w' := by
  unfold Rec.bind; rw [h]

/-- A group is changed. -/
def putGroup (w : Mgr) (ga : Nat) (g : GroupObj) : Mgr := { w with heap := { w.heap with groups := w.heap.groups.set ga g } }

theorem putGroup_same {ga : Nat} {g : GroupObj} (h : w.heap.groups[ga]? = some g) : putGroup w ga g = w := by
  unfold putGroup; rw [setList_same h]

theorem putGroup_get {ga : Nat} {g g' : GroupObj} (h : w.heap.groups[ga]? = some g) : (putGroup w ga g').heap.groups[ga]? = some g' :=
  List.getElem?_set_self (RHeap.lt_of_get h)

theorem putGroup_put {ga : Nat} {g g' : GroupObj} : putGroup (putGroup w ga g) ga g' = putGroup w ga g' := by
  unfold putGroup; simp only [List.set_set]

theorem keepOne {ga : Nat} {g : GroupObj} {a : Attr} (h : w.heap.groups[ga]? = some g) :
    keepAttr ga (some a) w = (.ok (), putGroup w ga { g with perms := if (g.perms.get a.toStr).isSome then g.perms else g.perms.set a.toStr a }) := by
  rw [keepAttr, deref_some, ret_bind, groupAt_bind, h]
  dsimp only
  by_cases hc : (g.perms.get a.toStr).isSome
  · rw [if_pos hc, if_pos hc, putGroup_same (g := { g with perms := g.perms }) h]; rfl
  · rw [if_neg hc, if_neg hc]; rfl

theorem keep_eq {ga : Nat} {g : GroupObj} {as : List Attr} (h : w.heap.groups[ga]? = some g) :
    RP.each (keepAttr ga) (as.map some) w = (.ok (), putGroup w ga { g with perms := RHeap.addAttrsKeep g.perms as }) := by
  induction as generalizing w g with
  | nil => rw [show putGroup w ga { g with perms := RHeap.addAttrsKeep g.perms [] } = w from putGroup_same h]; rfl
  | cons a as ih =>
    rw [List.map_cons, RP.each, bind_of (keepOne h), ih (putGroup_get h), putGroup_put, RHeap.addAttrsKeep]
    split <;> rfl

theorem perm_agrees (inv : w.Inv) {r : Nat} {group : Str} {as : List Attr} :
    Agrees (roleAddPermission (some r) group (as.map some) w) ((w.heap.addPermission r group as).map fun x => (x.1, { w with heap := x.2 })) := by
  rw [roleAddPermission, RHeap.addPermission, deref_some, ret_bind, roleAt_bind]
  cases hr : w.heap.roles[r]? with
  | none => rfl
  | some ro =>
    dsimp only
    by_cases h : ro.lock
    · rw [if_pos h, if_pos h]; rfl
    · rw [if_neg h, if_neg h]
      cases hg : ro.perms.get group with
      | none =>
        dsimp only
        rw [derefAll_some]
        rfl
      | some ga =>
        dsimp only
        cases hga : w.heap.groups[ga]? with
        | none =>
          have := inv.heap.perms ro (List.mem_of_getElem? hr) _ (GoMap.get_some_mem hg)
          rw [List.getElem?_eq_getElem this] at hga
          cases hga
        | some g =>
          rw [Rec.bind, keep_eq hga]
          dsimp only
          rw [roleAt_bind, show (putGroup w ga { g with perms := RHeap.addAttrsKeep g.perms as }).heap.roles[r]? = some ro from hr]
          rfl

theorem attrs_eq {ga : Nat} {g : GroupObj} {as : List Attr} (h : w.heap.groups[ga]? = some g) :
    RP.groupAddAttributes (some ga) (as.map some) w =
      (.ok (), putGroup w ga { g with perms := as.foldl (fun m a => m.set a.toStr a) g.perms }) := by
  unfold RP.groupAddAttributes
  induction as generalizing w g with
  | nil => rw [show putGroup w ga { g with perms := List.foldl (fun m a => m.set a.toStr a) g.perms [] } = w from putGroup_same h]; rfl
  | cons a as ih =>
    rw [List.map_cons, RP.each, bind_of (w' := putGroup w ga { g with perms := g.perms.set a.toStr a }) (by
      rw [deref_some, ret_bind, deref_some, ret_bind, groupAt_bind, h]; rfl), ih (putGroup_get h), putGroup_put]
    rfl

theorem toRole_agrees (inv : w.Inv) {r group : Str} {as : List Attr} :
    Agrees (RP.addPermissionsToRole r group (as.map some) w)
      ((w.heap.addPermissionsToRole w.roles w.attrGroups r group as).map fun x => (x.1, { w with heap := x.2 })) := by
  rw [RP.addPermissionsToRole, RHeap.addPermissionsToRole, read_bind]
  cases w.roles.get r with
  | none => rfl
  | some ra =>
    dsimp only
    rw [read_bind]
    cases w.attrGroups.get group with
    | none => rfl
    | some ga =>
      dsimp only
      rw [groupAt_bind]
      cases w.heap.groups[ga]? with
      | none => rfl
      | some g =>
        dsimp only
        rw [look_bind, associated_some]
        dsimp only
        by_cases h : RHeap.allAssociated g as
        · rw [if_pos h, if_pos h]; exact perm_agrees inv
        · rw [if_neg h, if_neg h]; rfl

theorem desc_cons {c d : Nat} {ds : List Nat} : w.tAddDescendant c (d :: ds) =
    ((linkOnly w c d).bind fun w1 =>
      match w1.tobjs[c]? with
      | none => .panic
      | some ct =>
        match ct.defNs with
        | none => .ok w1
        | some n => (w1.tAddNamespace d n).bind fun w2 => w2.tSetDefaultNamespace d n).bind fun w3 => w3.tAddDescendant c ds := by
  rw [Mgr.tAddDescendant, linkOnly]
  cases hc : w.tobjs[c]? with
  | none => rfl
  | some ct =>
    cases hd : w.tobjs[d]? with
    | none => rfl
    | some dt =>
      dsimp only [Out.bind]
      have e : ∃ ct', (if (ct.desc.get dt.id).isSome then w else { w with tobjs := w.tobjs.set c { ct with desc := ct.desc.set dt.id d } }).tobjs[c]? = some ct' ∧
          ct'.defNs = ct.defNs := by
        split
        · exact ⟨ct, hc, rfl⟩
        · exact ⟨_, List.getElem?_set_self (RHeap.lt_of_get hc), rfl⟩
      obtain ⟨ct', e1, e2⟩ := e
      rw [e1]
      dsimp only
      rw [e2]
      cases ct.defNs with
      | none => rfl
      | some n => dsimp only; cases Mgr.tAddNamespace _ d n <;> rfl

theorem row_agrees {c : Nat} {row : TenantObj → Data} :
    Agrees (((managed (some c)).bind fun t => addData (some (row t))) w) ((w.withTenant c fun t => w.addData (row t)).map fun w => ((), w)) := by
  rw [row_eq]; exact .whole _

theorem desc_agrees {c : Nat} {ds : List Nat} :
    Agrees (RP.tAddDescendant (some c) (ds.map some) w) ((w.tAddDescendant c ds).map fun w => ((), w)) := by
  unfold RP.tAddDescendant
  induction ds generalizing w with
  | nil => rfl
  | cons d ds ih =>
    rw [List.map_cons, RP.each, desc_cons]
    have e : ∀ {x : Out Mgr} {f : Mgr → Out Mgr}, (x.bind f).map (fun w => ((), w)) =
        (x.map fun w => ((), w)).bind fun y => (f y.2).map fun w => ((), w) := fun {x f} => by cases x <;> rfl
    rw [e, e]
    refine Agrees.bind (Agrees.bind (by rw [link_eq]; exact .whole _) fun _ w1 _ _ => ?_) fun _ w' _ _ => ih
    rw [deref_some, ret_bind, tenantAt_bind]
    cases w1.tobjs[c]? with
    | none => rfl
    | some ct =>
      dsimp only
      cases ct.defNs with
      | none => rfl
      | some n =>
        dsimp only
        rw [e]
        exact Agrees.bind (row_agrees (row := fun t => { tenant := .str t.id, namespace_ := .str n })) fun _ w2 _ _ => by
          rw [setDefault_eq]; exact .whole _

theorem grants_agrees {f : Str → Rec (Option Err)} {g : Mgr → List Str → Out (Option Err × Mgr)} {k : Mgr → Str → Out (Option Err × Mgr)}
    (h0 : ∀ w, g w [] = .ok (none, w))
    (h1 : ∀ w x l, g w (x :: l) = (k w x).bind fun y => match y.1 with | some e => .ok (some e, y.2) | none => g y.2 l)
    (hf : ∀ (w : Mgr) x, w.Inv → f x w = RP.whole (k w x) w) (hk : ∀ (w : Mgr) x y, w.Inv → k w x = .ok y → y.2.Inv)
    {l : List Str} (inv : w.Inv) : Agrees (RP.grants f l w) (g w l) := by
  induction l generalizing w with
  | nil => rw [h0]; rfl
  | cons x l ih =>
    rw [h1, RP.grants]
    refine Agrees.bind (by rw [hf w x inv]; exact .whole _) fun e w' _ hs => ?_
    cases e with
    | some e => rfl
    | none => exact ih (hk w x _ inv hs)

/-- A call of the sequential description and the call with pointers end alike, and leave the same when they return. -/
theorem go_agrees {op : MOp} (inv : w.Inv) (hg : GroupThere w op) : Agrees ((ofMOp op).go w) ((op.apply w).map fun w => ((), w)) := by
  cases op with
  | role op =>
    cases op with
    | newRole id => rfl
    | newGroup id => rfl
    | addDesc r ds =>
      have h := (roleDesc_agrees (w := w) (r := r) (ds := ds)).drop
      rw [MOp.apply, RoleOp.apply]
      simp only [Out.map_map] at h ⊢
      exact h
    | addPerm r g as =>
      have h := (perm_agrees inv (r := r) (group := g) (as := as)).drop
      rw [MOp.apply, RoleOp.apply]
      simp only [Out.map_map] at h ⊢
      exact h
    | addGroup r ga =>
      have h := (show Agrees _ _ from addGroup_eq (w := w) r ga hg ▸ Agrees.whole _).drop
      rw [MOp.apply, RoleOp.apply]
      simp only [Out.map_map] at h ⊢
      exact h
    | addAttrs ga as =>
      rw [MOp.apply, RoleOp.apply, RHeap.groupAddAttributes, List.getElem?_eq_getElem hg]
      exact attrs_eq (List.getElem?_eq_getElem hg)
    | lock r b =>
      show Agrees (roleLock (some r) b w) _
      rw [lock_eq, MOp.apply, RoleOp.apply, Out.map_map]
      exact .whole _
  | newTenant id => rfl
  | addTenant a =>
    show Agrees (RP.each addTenant [some a] w) _
    rw [each_one, addTenant_eq, MOp.apply, Out.map_map]
    exact .whole _
  | addNamespace id obj => show Agrees (RP.each addNamespace _ w) _; rw [each_one, addNamespace_eq]; rfl
  | addScope id obj => show Agrees (RP.each addScope _ w) _; rw [each_one, addScope_eq]; rfl
  | addPrincipal id obj => show Agrees (RP.each addPrincipal _ w) _; rw [each_one, addPrincipal_eq]; rfl
  | addRole r =>
    show Agrees (RP.each addRole [some r] w) _
    rw [each_one, addRole_eq, MOp.apply, Out.map_map]
    exact .whole _
  | addAttribute a obj => show Agrees (RP.each addAttribute _ w) _; rw [each_one, addAttribute_eq]; rfl
  | addAttributeGroup ga =>
    show Agrees (RP.each addAttributeGroup [some ga] w) _
    rw [each_one, addAttributeGroup_eq, MOp.apply, Out.map_map]
    exact .whole _
  | addData d => show Agrees (addData (some d) w) _; rw [addData_eq]; exact .whole _
  | tAddNamespace c n =>
    show Agrees (RP.each (tAddNamespace (some c)) [some n] w) _
    rw [each_one]
    exact row_agrees (row := fun t => { tenant := .str t.id, namespace_ := .str n })
  | tAddScopesToNamespace c n s => exact row_agrees (row := fun t => { tenant := .str t.id, namespace_ := .str n, scope := .str s })
  | tSetDefaultNamespace c n => show Agrees (tSetDefaultNamespace _ _ w) _; rw [setDefault_eq]; exact .whole _
  | tAddPrincipalInNamespace c p n r =>
    exact row_agrees (row := fun t => { tenant := .str t.id, namespace_ := .str n, role := .str r, principal := .str p })
  | tAddRole c r =>
    show Agrees (RP.each (tAddRole (some c)) [some r] w) _
    rw [each_one]
    exact row_agrees (row := fun t => { tenant := .str t.id, role := .str r })
  | tAddScope c s =>
    show Agrees (RP.each (tAddScope (some c)) [some s] w) _
    rw [each_one]
    exact row_agrees (row := fun t => { tenant := .str t.id, scope := .str s })
  | tAddDescendant c ds => exact desc_agrees
  | tAddPrincipalWithRole c p r m =>
    show Agrees ((RP.grants _ [r]).drop w) _
    rw [grants_one, MOp.apply, Out.map_map]
    exact (show Agrees _ _ from withRole_eq inv ▸ Agrees.whole _).drop
  | tAddPrincipal c p m rs =>
    rw [MOp.apply, Out.map_map]
    exact (grants_agrees (f := withRole (some c) p m) (g := fun w l => w.tAddPrincipal c p m l) (k := fun w r => w.tAddPrincipalWithRole c p r m)
      (fun _ => rfl) (fun _ _ _ => rfl) (fun w x i => withRole_eq i)
      (fun w x y i h => MOp.apply_inv (op := .tAddPrincipalWithRole c p x m) i (by rw [MOp.apply, h]; rfl)) inv).drop
  | tAddScopeToPrincipal c p s m =>
    show Agrees ((RP.grants _ [s]).drop w) _
    rw [grants_one, MOp.apply, Out.map_map]
    exact (show Agrees _ _ from withScope_eq inv ▸ Agrees.whole _).drop
  | tAssignScopes c p m ss =>
    rw [MOp.apply, Out.map_map]
    exact (grants_agrees (f := withScope (some c) p m) (g := fun w l => w.tAssignScopes c p m l) (k := fun w r => w.tAddScopeToPrincipal c p r m)
      (fun _ => rfl) (fun _ _ _ => rfl) (fun w x i => withScope_eq i)
      (fun w x y i h => MOp.apply_inv (op := .tAddScopeToPrincipal c p x m) i (by rw [MOp.apply, h]; rfl)) inv).drop
  | addPermissionsToRole r g as =>
    have h := (toRole_agrees inv (r := r) (group := g) (as := as)).drop
    rw [MOp.apply]
    simp only [Out.map_map] at h ⊢
    exact h
  | tenantChildren o fuel site id => rw [MOp.apply, Out.map_map]; exact (show Agrees _ _ from children_eq ▸ Agrees.whole _).drop
  | implicitTenants o fuel site p => rw [MOp.apply, Out.map_map]; exact implicit_agrees.drop
  | authorize o fuel site p opts => rw [MOp.apply, Out.map_map]; exact authorize_agrees.drop

/-! ## C118 -/

/-- C118. Whatever is called, with whatever nil pointers, and however often a panic is recovered from: the manager is as calls that
returned would have left it, and its representation is sound. -/
theorem C118_recovered {cs : List NCall} (inv : w.Inv) (h : runAll w cs = some w') : AsIf w w' ∧ w'.Inv := by
  induction cs generalizing w with
  | nil => cases h; exact ⟨.refl _, inv⟩
  | cons c cs ih =>
    have hf := Fine.go c inv
    have hi := AsIf.inv inv hf
    rw [runAll] at h
    have h' : runAll (c.go w).2 cs = some w' := by
      split at h
      · cases h
      · exact h
    exact ⟨hf.trans (ih hi h').1, (ih hi h').2⟩

theorem derefAll_ok {l : List (Option α)} {l' : List α} (h : derefAll l = .ok l') : l = l'.map some := by
  induction l generalizing l' with
  | nil => cases h; rfl
  | cons x l ih =>
    cases x with
    | none => cases h
    | some a =>
      rw [derefAll, Out.map_eq_ok] at h
      obtain ⟨l1, h1, rfl⟩ := h
      rw [ih h1]; rfl

/-- C118. A decision made after panics have been recovered from is the right one for what is stored. -/
theorem C118_decides {cs : List NCall} (hr : runAll {} cs = some w) {o : Ord} {fuel : Nat} {site : List Val} {p : Str} {opts : List (Option Opt)} {b : Bool}
    (h : RP.authorize o fuel site p opts w = (.ok b, w')) :
    b = true ↔ ∃ os : List Opt, opts = os.map some ∧ (∃ x, (p, x) ∈ w.principals) ∧ ∃ I, w'.pcache.get p = some I ∧ I ≠ [] ∧
      Resources w (requestOf os) ∧ ∃ c, (c = (requestOf os).tenant ∨ ∃ t ∈ I, c = .str t) ∧ Decides w p c (requestOf os) := by
  have inv := (C118_recovered Mgr.Inv.empty hr).2
  cases hp : w.principals.get p with
  | none =>
    rw [RP.authorize, read_bind, hp] at h
    cases h
    simp only [Bool.false_eq_true, false_iff]
    rintro ⟨_, _, ⟨x, hx⟩, _⟩
    rw [(GoMap.mem_iff_get inv.regP).1 hx] at hp; cases hp
  | some x =>
    obtain ⟨os, rfl⟩ : ∃ os : List Opt, opts = os.map some := by
      rw [RP.authorize, read_bind, hp] at h
      simp only [Option.isNone_some, Bool.false_eq_true, if_false] at h
      rw [look_bind] at h
      cases hd : derefAll opts with
      | ok os => exact ⟨os, derefAll_ok hd⟩
      | panic => rw [hd] at h; cases h
      | diverge => rw [hd] at h; cases h
    have ha := authorize_agrees (w := w) (o := o) (fuel := fuel) (site := site) (p := p) (opts := os)
    have hs := Agrees.ok (a := b) ha (by rw [h])
    rw [h] at hs
    rw [authorize_exact inv hs]
    constructor
    · intro hx; exact ⟨os, rfl, hx⟩
    · rintro ⟨os', e, hx⟩
      rw [List.map_inj_right (fun _ _ => Option.some.inj)] at e
      rw [e]; exact hx

/-- C118. Without panics this is the history of the sequential description. -/
theorem C118_without {ops : List MOp} (inv : w.Inv) (h : MOp.run w ops = .ok w') : runAll w (ops.map ofMOp) = some w' := by
  induction ops generalizing w with
  | nil => cases h; rfl
  | cons op ops ih =>
    rw [MOp.run, Out.bind_eq_ok] at h
    obtain ⟨w1, h1, h⟩ := h
    have hg : GroupThere w op := by
      cases op with
      | role op =>
        rw [MOp.apply, Out.map_eq_ok] at h1
        obtain ⟨hp, h1, _⟩ := h1
        cases op with
        | addGroup r ga =>
          rw [RoleOp.apply, Out.map_eq_ok] at h1
          obtain ⟨_, h1, _⟩ := h1
          rw [RHeap.addPermissionResourceGroup] at h1
          split at h1
          · rename_i hx; exact RHeap.lt_of_get hx
          · cases h1
        | addAttrs ga as =>
          rw [RoleOp.apply, RHeap.groupAddAttributes] at h1
          split at h1
          · cases h1
          · rename_i hx; exact RHeap.lt_of_get hx
        | _ => trivial
      | _ => trivial
    have ha := go_agrees inv hg
    rw [h1] at ha
    rw [List.map_cons, runAll, show (ofMOp op).go w = _ from ha]
    exact ih (MOp.apply_inv inv h1) h

/-- C118. A call that panics in the sequential description panics with pointers, too, and the other way round. -/
theorem C118_panics {op : MOp} (inv : w.Inv) (hg : GroupThere w op) : ((ofMOp op).go w).1 = .panic ↔ op.apply w = .panic := by
  have ha := go_agrees inv hg
  cases h : op.apply w with
  | ok x => rw [h] at ha; rw [show (ofMOp op).go w = _ from ha]; simp
  | panic => rw [h] at ha; rw [show ((ofMOp op).go w).1 = _ from ha]; simp
  | diverge => rw [h] at ha; rw [show ((ofMOp op).go w).1 = _ from ha]; simp

/-- The calls about one object, the calls that grant, and `TenantChildren`. -/
def Single : NCall → Prop
  | .addTenants l | .addRoles l | .addAttributeGroups l => l.length ≤ 1
  | .addNamespaces l | .addScopes l | .addPrincipals l => l.length ≤ 1
  | .addAttributes l => l.length ≤ 1
  | .roleAddDescendant _ l => l.length ≤ 1
  | .roleAddPermission _ _ l | .groupAddAttributes _ l => l.length ≤ 1
  | .tAddNamespaces _ l | .tAddRoles _ l | .tAddScopes _ l => l.length ≤ 1
  | .tAddDescendant .. | .implicitTenants .. | .authorize .. => False
  | _ => True

/-- When the computation panics it has changed nothing. -/
def Safe (x : Rec α) (w : Mgr) : Prop := (x w).1 = .panic → (x w).2 = w

theorem Safe.whole {x : Rec α} {s : Out (α × Mgr)} (h : x w = RP.whole s w) : Safe x w := by
  intro hp
  rw [h] at hp ⊢
  cases s with
  | ok y => cases hp
  | panic => rfl
  | diverge => rfl

theorem Safe.each {f : α → Rec Unit} {l : List α} (hl : l.length ≤ 1) (h : ∀ x ∈ l, Safe (f x) w) : Safe (RP.each f l) w := by
  match l, hl with
  | [], _ => intro hp; cases hp
  | [x], _ => have := h x (List.mem_cons_self ..); unfold Safe; rw [each_one]; exact this

theorem Safe.drop {x : Rec α} (h : Safe x w) : Safe x.drop w := by
  unfold Safe Rec.drop Rec.bind
  cases hx : (x w).1 with
  | ok a => intro hp; cases hp
  | panic => intro _; exact h hx
  | diverge => intro hp; cases hp

theorem Safe.ok {x : Rec α} {a : α} (h : (x w).1 = .ok a) : Safe x w := by
  intro hp; rw [h] at hp; cases hp

theorem Safe.bindOk {x : Rec α} {f : α → Rec β} (h : Safe x w) (hf : ∀ a v, ∃ b, (f a v).1 = .ok b) : Safe (x.bind f) w := by
  unfold Safe Rec.bind
  cases hx : (x w).1 with
  | ok a => obtain ⟨b, hb⟩ := hf a (x w).2; intro hp; rw [show (f a (x w).2).1 = _ from hb] at hp; cases hp
  | panic => intro _; exact h hx
  | diverge => intro hp; cases hp

theorem Safe.look {f : Mgr → Out α} {k : α → Rec β} (h : ∀ a, f w = .ok a → Safe (k a) w) : Safe ((RP.look f).bind k) w := by
  unfold Safe
  rw [look_bind]
  cases hf : f w with
  | ok a => exact h a hf
  | panic => intro _; rfl
  | diverge => intro _; rfl

theorem Safe.deref {p : Option α} {k : α → Rec β} (h : ∀ a, p = some a → Safe (k a) w) : Safe ((RP.deref p).bind k) w := by
  cases p with
  | none => intro _; rfl
  | some a => exact h a rfl

theorem Safe.ite {c : Prop} [Decidable c] {x y : Rec α} (h1 : c → Safe x w) (h2 : ¬ c → Safe y w) : Safe (if c then x else y) w := by
  split
  · exact h1 ‹_›
  · exact h2 ‹_›

theorem Safe.row {c : Option Nat} {x : Option α} {row : TenantObj → α → Data} :
    Safe ((managed c).bind fun t => (RP.deref x).bind fun a => addData (some (row t a))) w := by
  cases c with
  | none => intro _; rfl
  | some c =>
    cases x with
    | none =>
      unfold Safe
      rw [managed_eq]
      split
      · intro _; rfl
      · split <;> (intro _; rfl)
    | some a => exact Safe.whole row_eq

theorem grant_ok (inv : w.Inv) {c : Nat} {t : TenantObj} (hc : w.tobjs[c]? = some t) (hm : t.managed = true)
    {p x : Str} {get : Mgr → GoMap Str Nat} {err : Err} {row : Str → Val → Data} :
    ∃ e v, grant (some c) p get err x row w = (.ok e, v) ∧ v.tobjs = w.tobjs ∧ v.Inv := by
  rw [grant_eq inv, Mgr.withTenant, hc]
  simp only [hm, if_true]
  split
  · exact ⟨_, w, rfl, rfl, inv⟩
  split
  · exact ⟨_, w, rfl, rfl, inv⟩
  obtain ⟨w1, e1, t1, i1⟩ := addData_ok inv (row t.id .nil)
  rw [e1]
  dsimp only [Out.bind]
  cases t.defNs with
  | none => exact ⟨_, w1, rfl, t1, i1⟩
  | some n =>
    obtain ⟨w2, e2, t2, i2⟩ := addData_ok i1 (row t.id (.str n))
    dsimp only
    rw [e2]
    exact ⟨_, w2, rfl, t2.trans t1, i2⟩

theorem Safe.grants (inv : w.Inv) {c : Option Nat} {p : Str} {get : Mgr → GoMap Str Nat} {err : Err} {row : Str → Str → Val → Data} {l : List Str} :
    Safe (RP.grants (fun x => grant c p get err x (row x)) l) w := by
  cases l with
  | nil => intro h; cases h
  | cons x l =>
    cases c with
    | none => intro _; rfl
    | some c =>
      by_cases hc : ∃ t, w.tobjs[c]? = some t ∧ t.managed = true
      · obtain ⟨t, hc, hm⟩ := hc
        suffices H : ∀ (l : List Str) (w : Mgr), w.Inv → w.tobjs[c]? = some t → ∃ e, (RP.grants (fun x => grant (some c) p get err x (row x)) l w).1 = .ok e by
          obtain ⟨e, he⟩ := H (x :: l) w inv hc
          exact Safe.ok he
        intro l
        induction l with
        | nil => intro w _ _; exact ⟨none, rfl⟩
        | cons y l ih =>
          intro w inv hc
          obtain ⟨e, v, h1, h2, h3⟩ := grant_ok inv hc hm (p := p) (x := y) (get := get) (err := err) (row := row y)
          rw [RP.grants, bind_of h1]
          cases e with
          | some e => exact ⟨some e, rfl⟩
          | none => exact ih v h3 (h2 ▸ hc)
      · intro _
        have hf : grant (some c) p get err x (row x) w = (.panic, w) := by
          rw [grant_eq inv, Mgr.withTenant]
          cases ht : w.tobjs[c]? with
          | none => rfl
          | some t =>
            cases hm : t.managed with
            | true => exact absurd ⟨t, ht, hm⟩ hc
            | false => simp [hm, RP.whole]
        rw [RP.grants, Rec.bind, hf]

theorem perm_ok (inv : w.Inv) {r : Nat} {ro : RoleObj} (hr : w.heap.roles[r]? = some ro) {group : Str} {as : List Attr} :
    ∃ e, (roleAddPermission (some r) group (as.map some) w).1 = .ok e := by
  have ha := perm_agrees inv (r := r) (group := group) (as := as)
  cases he : w.heap.addPermission r group as with
  | ok x => rw [he] at ha; exact ⟨x.1, by rw [show _ = _ from ha]⟩
  | panic =>
    rw [RHeap.addPermission, hr] at he
    dsimp only at he
    split at he
    · cases he
    · split at he
      · rename_i ga hg
        rw [List.getElem?_eq_getElem (inv.heap.perms ro (List.mem_of_getElem? hr) _ (GoMap.get_some_mem hg))] at he
        cases he
      · cases he
  | diverge =>
    rw [RHeap.addPermission, hr] at he
    dsimp only at he
    split at he
    · cases he
    · split at he
      · split at he <;> cases he
      · cases he

theorem associated_true {g : GroupObj} {as : List (Option Attr)} (h : associated g as = .ok true) : ∃ l : List Attr, as = l.map some := by
  induction as with
  | nil => exact ⟨[], rfl⟩
  | cons q as ih =>
    cases q with
    | none => cases h
    | some a =>
      rw [associated] at h
      split at h
      · obtain ⟨l, rfl⟩ := ih h; exact ⟨a :: l, rfl⟩
      · cases h

/-- C118. A call about one object, a call that grants and `TenantChildren` change nothing when they panic. -/
theorem C118_nothing {c : NCall} (inv : w.Inv) (hs : Single c) (h : (c.go w).1 = .panic) : (c.go w).2 = w := by
  suffices H : Safe c.go w from H h
  cases c with
  | newRole id => exact Safe.ok rfl
  | newGroup id => exact Safe.ok rfl
  | newTenant id => exact Safe.ok rfl
  | addTenants l =>
    refine Safe.each hs fun q _ => ?_
    cases q with
    | none => intro _; rfl
    | some a => exact Safe.whole (addTenant_eq a)
  | addNamespaces l =>
    refine Safe.each hs fun q _ => ?_
    cases q with
    | none => intro _; rfl
    | some x => exact Safe.ok (by rw [addNamespace_eq])
  | addScopes l =>
    refine Safe.each hs fun q _ => ?_
    cases q with
    | none => intro _; rfl
    | some x => exact Safe.ok (by rw [addScope_eq])
  | addPrincipals l =>
    refine Safe.each hs fun q _ => ?_
    cases q with
    | none => intro _; rfl
    | some x => exact Safe.ok (by rw [addPrincipal_eq])
  | addAttributes l =>
    refine Safe.each hs fun q _ => ?_
    cases q with
    | none => intro _; rfl
    | some x => exact Safe.ok (by rw [addAttribute_eq])
  | addRoles l =>
    refine Safe.each hs fun q _ => ?_
    cases q with
    | none => intro _; rfl
    | some a => exact Safe.whole (addRole_eq a)
  | addAttributeGroups l =>
    refine Safe.each hs fun q _ => ?_
    cases q with
    | none => intro _; rfl
    | some a => exact Safe.whole (addAttributeGroup_eq a)
  | roleAddDescendant r ds =>
    refine Safe.drop (Safe.deref fun r _ => Safe.look fun ro _ => Safe.ite (fun _ => Safe.ok rfl) fun _ =>
      Safe.bindOk (Safe.each hs fun q _ => ?_) fun _ _ => ⟨none, rfl⟩)
    exact Safe.deref fun d _ => Safe.look fun dro _ => Safe.look fun ro _ => Safe.ite (fun _ => Safe.ok rfl) fun _ => Safe.ok rfl
  | roleAddPermission r g as =>
    refine Safe.drop ?_
    cases r with
    | none => intro _; rfl
    | some r =>
      cases hr : w.heap.roles[r]? with
      | none => unfold Safe; rw [RP.roleAddPermission, deref_some, ret_bind, roleAt_bind, hr]; intro _; rfl
      | some ro =>
        match as, hs with
        | [], _ => obtain ⟨e, he⟩ := perm_ok inv hr (group := g) (as := []); exact Safe.ok he
        | [some a], _ => obtain ⟨e, he⟩ := perm_ok inv hr (group := g) (as := [a]); exact Safe.ok he
        | [none], _ =>
          refine Safe.deref fun r _ => Safe.look fun ro hr => Safe.ite (fun _ => Safe.ok rfl) fun _ => ?_
          cases ro.perms.get g with
          | none => exact Safe.look fun as _ => Safe.ok rfl
          | some ga => intro _; rfl
  | roleAddGroup r ga =>
    exact Safe.drop (Safe.deref fun r _ => Safe.look fun ro _ => Safe.ite (fun _ => Safe.ok rfl) fun _ =>
      Safe.deref fun d _ => Safe.look fun g _ => Safe.ite (fun _ => Safe.ok rfl) fun _ => Safe.ok rfl)
  | roleLock r b =>
    cases r with
    | none => intro _; rfl
    | some r => exact Safe.whole (lock_eq r b)
  | groupAddAttributes ga as =>
    exact Safe.each hs fun q _ => Safe.deref fun a _ => Safe.deref fun ga _ => Safe.look fun g _ => Safe.ok rfl
  | addPermissionsToRole r g as =>
    refine Safe.drop ?_
    unfold Safe
    rw [RP.addPermissionsToRole, read_bind]
    cases hr : w.roles.get r with
    | none => intro h; cases h
    | some ra =>
      dsimp only
      rw [read_bind]
      cases w.attrGroups.get g with
      | none => intro h; cases h
      | some ga =>
        refine Safe.look fun g _ => Safe.look fun b hb => Safe.ite (fun hb' => ?_) fun _ => Safe.ok rfl
        subst hb'
        obtain ⟨l, rfl⟩ := associated_true hb
        obtain ⟨ro, hro, _⟩ := inv.roles _ _ hr
        obtain ⟨e, he⟩ := perm_ok inv hro
        exact Safe.ok he
  | addData d =>
    cases d with
    | none => exact Safe.ok rfl
    | some d => exact Safe.whole (addData_eq d)
  | tAddNamespaces c l => exact Safe.each hs fun _ _ => Safe.row
  | tAddRoles c l => exact Safe.each hs fun _ _ => Safe.row
  | tAddScopes c l => exact Safe.each hs fun _ _ => Safe.row
  | tAddScopesToNamespace c n s => exact Safe.row (x := some ()) (row := fun t _ => { tenant := .str t.id, namespace_ := .str n, scope := .str s })
  | tSetDefaultNamespace c n =>
    cases c with
    | none => intro _; rfl
    | some c => exact Safe.whole setDefault_eq
  | tAddPrincipalInNamespace c p n r =>
    exact Safe.row (x := some ()) (row := fun t _ => { tenant := .str t.id, namespace_ := .str n, role := .str r, principal := .str p })
  | tAddPrincipal c p m rs => exact (Safe.grants inv).drop
  | tAssignScopes c p m ss => exact (Safe.grants inv).drop
  | tAddDescendant c ds => cases hs
  | tenantChildren o fuel site id => exact (Safe.whole children_eq).drop
  | implicitTenants o fuel site p => cases hs
  | authorize o fuel site p opts => cases hs

theorem SameHier.loop {o : Ord} {fuel : Nat} {site : List Val} {rows : List Data} {i : Nat} {E : List Str} :
    (RP.implicitLoop o fuel site i rows E w).2 = { w with hierarchy := (RP.implicitLoop o fuel site i rows E w).2.hierarchy } := by
  induction rows generalizing i E w with
  | nil => rfl
  | cons row rows ih =>
    rw [RP.implicitLoop]
    cases row.tenant with
    | str t =>
      dsimp only
      split
      · exact ih
      split
      · unfold Rec.bind
        have hc : (RP.tenantChildren o fuel (site ++ [.int i]) t w).2 =
            { w with hierarchy := (RP.tenantChildren o fuel (site ++ [.int i]) t w).2.hierarchy } := by
          rw [children_eq, Mgr.tenantChildren]
          cases w.hierarchy.get t with
          | some x => rfl
          | none =>
            cases w.tenants.get t with
            | none => rfl
            | some c => dsimp only; cases w.descendants o fuel (site ++ [.int i]) c <;> rfl
        generalize RP.tenantChildren o fuel (site ++ [.int i]) t w = y at hc
        obtain ⟨a, v⟩ := y
        dsimp only at hc ⊢
        cases a with
        | panic => exact hc
        | diverge => exact hc
        | ok x =>
          dsimp only
          cases hE : Mgr.addDescs (E ++ [t]) x with
          | ok E' =>
            simp only [RP.look]
            rw [ih]
            rw [hc]
          | panic => simp only [RP.look]; exact hc
          | diverge => simp only [RP.look]; exact hc
      · exact ih
    | nil => rfl
    | bool b => rfl
    | int z => rfl

theorem implicit_left {o : Ord} {fuel : Nat} {site : List Val} {p : Str} :
    (RP.implicitTenants o fuel site p w).2 = { w with hierarchy := (RP.implicitTenants o fuel site p w).2.hierarchy, pcache := (RP.implicitTenants o fuel site p w).2.pcache } ∧
    ((RP.implicitTenants o fuel site p w).1 = .panic → (RP.implicitTenants o fuel site p w).2.pcache = w.pcache) := by
  rw [RP.implicitTenants, read_bind]
  cases hp : w.pcache.get p with
  | some I => exact ⟨rfl, fun _ => rfl⟩
  | none =>
    dsimp only
    rw [read_bind]
    have hl := SameHier.loop (w := w) (o := o) (fuel := fuel) (site := site ++ [.int 1]) (i := 0) (E := [])
      (rows := w.search o (site ++ [.int 0]) { principal := .str p } filterTenantsByPrincipal)
    rw [Rec.bind]
    generalize RP.implicitLoop o fuel (site ++ [.int 1]) 0 (w.search o (site ++ [.int 0]) { principal := .str p } filterTenantsByPrincipal) [] w = y at hl
    obtain ⟨a, v⟩ := y
    dsimp only at hl ⊢
    cases a with
    | ok E =>
      dsimp only
      rw [write_bind, ret_apply]
      exact ⟨by rw [hl], fun h => by cases h⟩
    | panic => exact ⟨by rw [hl], fun _ => by rw [hl]⟩
    | diverge => exact ⟨by rw [hl], fun h => by cases h⟩

/-- C118. A question that panics changes only what is remembered: `GetImplicitTenants` then remembers no list for a principal, and
`Authorize` nothing but the lists. -/
theorem C118_asked {o : Ord} {fuel : Nat} {site : List Val} {p : Str} {opts : List (Option Opt)} :
    ((RP.implicitTenants o fuel site p w).1 = .panic → (RP.implicitTenants o fuel site p w).2 = { w with hierarchy := (RP.implicitTenants o fuel site p w).2.hierarchy }) ∧
    (RP.authorize o fuel site p opts w).2 = { w with hierarchy := (RP.authorize o fuel site p opts w).2.hierarchy, pcache := (RP.authorize o fuel site p opts w).2.pcache } := by
  constructor
  · intro h
    obtain ⟨h1, h2⟩ := implicit_left (w := w) (o := o) (fuel := fuel) (site := site) (p := p)
    rw [h2 h] at h1
    exact h1
  · rw [RP.authorize, read_bind]
    split
    · rfl
    rw [look_bind]
    cases derefAll opts with
    | panic => rfl
    | diverge => rfl
    | ok opts =>
      dsimp only
      rw [Rec.bind]
      obtain ⟨h1, _⟩ := implicit_left (w := w) (o := o) (fuel := fuel) (site := site ++ [.int 0]) (p := p)
      generalize RP.implicitTenants o fuel (site ++ [.int 0]) p w = y at h1
      obtain ⟨a, v⟩ := y
      dsimp only at h1 ⊢
      cases a with
      | panic => exact h1
      | diverge => exact h1
      | ok I =>
        dsimp only
        split
        · exact h1
        rw [look_bind]
        split
        · split
          · exact h1
          · rw [look_bind]
            split
            · split
              · exact h1
              · exact h1
            · exact h1
            · exact h1
        · exact h1
        · exact h1

/-- The calls about single objects that a call about several makes. -/
def parts : NCall → Option (List NCall)
  | .addTenants l => some (l.map fun q => .addTenants [q])
  | .addNamespaces l => some (l.map fun q => .addNamespaces [q])
  | .addScopes l => some (l.map fun q => .addScopes [q])
  | .addPrincipals l => some (l.map fun q => .addPrincipals [q])
  | .addAttributes l => some (l.map fun q => .addAttributes [q])
  | .addRoles l => some (l.map fun q => .addRoles [q])
  | .addAttributeGroups l => some (l.map fun q => .addAttributeGroups [q])
  | .groupAddAttributes ga l => some (l.map fun q => .groupAddAttributes ga [q])
  | .tAddNamespaces c l => some (l.map fun q => .tAddNamespaces c [q])
  | .tAddRoles c l => some (l.map fun q => .tAddRoles c [q])
  | .tAddScopes c l => some (l.map fun q => .tAddScopes c [q])
  | .tAddDescendant c l => some (l.map fun q => .tAddDescendant c [q])
  | _ => none

/-- The calls return and lead from `w` to `u`. -/
def Return (w : Mgr) : List NCall → Mgr → Prop
  | [], u => u = w
  | c :: cs, u => ∃ v, c.go w = (.ok (), v) ∧ Return v cs u

theorem each_panic {f : α → Rec Unit} {g : α → NCall} (hg : ∀ x w, (g x).go w = f x w) {l : List α} (h : (RP.each f l w).1 = .panic) :
    ∃ l1 x l2 u, l = l1 ++ x :: l2 ∧ Return w (l1.map g) u ∧ ((g x).go u).1 = .panic ∧ (RP.each f l w).2 = ((g x).go u).2 := by
  induction l generalizing w with
  | nil => cases h
  | cons x l ih =>
    rw [RP.each] at h ⊢
    cases hx : f x w with
    | mk a v =>
      cases a with
      | ok _ =>
        rw [bind_of hx] at h ⊢
        obtain ⟨l1, y, l2, u, rfl, h1, h2, h3⟩ := ih h
        exact ⟨x :: l1, y, l2, u, rfl, ⟨v, by rw [hg, hx], h1⟩, h2, h3⟩
      | panic => exact ⟨[], x, l, w, rfl, rfl, by rw [hg, hx], by rw [hg, hx, Rec.bind, hx]⟩
      | diverge => rw [Rec.bind, hx] at h; cases h

/-- C118. A call about several objects that panics leaves what the calls for the objects before the first one that panics leave, and
what that one leaves; the objects after it are not looked at. -/
theorem C118_prefix {c : NCall} {ps : List NCall} (inv : w.Inv) (hps : parts c = some ps) (h : (c.go w).1 = .panic) :
    ∃ before q after u, ps = before ++ q :: after ∧ Return w before u ∧ (q.go u).1 = .panic ∧ (c.go w).2 = (q.go u).2 ∧
      ((∀ t ds, c ≠ .tAddDescendant t ds) → (c.go w).2 = u) := by
  have go {α : Type} {f : α → Rec Unit} {g : α → NCall} {l : List α} (hg : ∀ x w, (g x).go w = f x w) (hc : c.go = RP.each f l)
      (hp : ps = l.map g) (hsing : (∀ t ds, c ≠ .tAddDescendant t ds) → ∀ x, Single (g x)) :
      ∃ before q after u, ps = before ++ q :: after ∧ Return w before u ∧ (q.go u).1 = .panic ∧ (c.go w).2 = (q.go u).2 ∧
        ((∀ t ds, c ≠ .tAddDescendant t ds) → (c.go w).2 = u) := by
    rw [hc] at h ⊢
    obtain ⟨l1, x, l2, u, rfl, h1, h2, h3⟩ := each_panic hg h
    refine ⟨l1.map g, g x, l2.map g, u, by rw [hp, List.map_append, List.map_cons], h1, h2, h3, fun hn => ?_⟩
    have iu : u.Inv := by
      clear h2 h3 hp h hc
      generalize l1.map g = cs at h1
      induction cs generalizing w with
      | nil => cases h1; exact inv
      | cons c cs ih =>
        obtain ⟨v, hv, h1⟩ := h1
        have := AsIf.inv inv (Fine.go c inv)
        rw [hv] at this
        exact ih this h1
    rw [h3]; exact C118_nothing iu (hsing hn x) h2
  cases c <;> simp only [parts, reduceCtorEq, Option.some.injEq] at hps
  case addTenants l => exact go (g := fun q => .addTenants [q]) (fun _ _ => each_one) rfl hps.symm fun _ _ => Nat.le_refl 1
  case addNamespaces l => exact go (g := fun q => .addNamespaces [q]) (fun _ _ => each_one) rfl hps.symm fun _ _ => Nat.le_refl 1
  case addScopes l => exact go (g := fun q => .addScopes [q]) (fun _ _ => each_one) rfl hps.symm fun _ _ => Nat.le_refl 1
  case addPrincipals l => exact go (g := fun q => .addPrincipals [q]) (fun _ _ => each_one) rfl hps.symm fun _ _ => Nat.le_refl 1
  case addAttributes l => exact go (g := fun q => .addAttributes [q]) (fun _ _ => each_one) rfl hps.symm fun _ _ => Nat.le_refl 1
  case addRoles l => exact go (g := fun q => .addRoles [q]) (fun _ _ => each_one) rfl hps.symm fun _ _ => Nat.le_refl 1
  case addAttributeGroups l => exact go (g := fun q => .addAttributeGroups [q]) (fun _ _ => each_one) rfl hps.symm fun _ _ => Nat.le_refl 1
  case groupAddAttributes ga l => exact go (g := fun q => .groupAddAttributes ga [q]) (fun _ _ => each_one) rfl hps.symm fun _ _ => Nat.le_refl 1
  case tAddNamespaces c l => exact go (g := fun q => .tAddNamespaces c [q]) (fun _ _ => each_one) rfl hps.symm fun _ _ => Nat.le_refl 1
  case tAddRoles c l => exact go (g := fun q => .tAddRoles c [q]) (fun _ _ => each_one) rfl hps.symm fun _ _ => Nat.le_refl 1
  case tAddScopes c l => exact go (g := fun q => .tAddScopes c [q]) (fun _ _ => each_one) rfl hps.symm fun _ _ => Nat.le_refl 1
  case tAddDescendant c l => exact go (g := fun q => .tAddDescendant c [q]) (fun _ _ => each_one) rfl hps.symm fun hn _ => absurd rfl (hn c l)

theorem each_append {f : α → Rec Unit} {l1 l2 : List α} : RP.each f (l1 ++ l2) w = ((RP.each f l1).bind fun _ => RP.each f l2) w := by
  induction l1 generalizing w with
  | nil => rfl
  | cons x l1 ih =>
    show ((f x).bind fun _ => RP.each f (l1 ++ l2)) w = (((f x).bind fun _ => RP.each f l1).bind fun _ => RP.each f l2) w
    unfold Rec.bind
    cases (f x w).1 with
    | ok a => exact ih
    | panic => rfl
    | diverge => rfl

/-- C118. Of two tenants that are there, `AddDescendant` panics just when the first has a default namespace and the second no manager.
It then leaves the link, and nothing else. -/
theorem C118_link {c d : Nat} {ct dt : TenantObj} (inv : w.Inv) (hc : w.tobjs[c]? = some ct) (hd : w.tobjs[d]? = some dt) :
    ((RP.tAddDescendant (some c) [some d] w).1 = .panic ↔ ct.defNs ≠ none ∧ dt.managed = false) ∧
    ((RP.tAddDescendant (some c) [some d] w).1 = .panic → linkOnly w c d = .ok (RP.tAddDescendant (some c) [some d] w).2) := by
  have hl : linkOnly w c d = .ok (if (ct.desc.get dt.id).isSome then w
    else { w with tobjs := w.tobjs.set c { ct with desc := ct.desc.set dt.id d } }) := by rw [linkOnly, hc, hd]
  have h1 : ∃ w1, linkOnly w c d = .ok w1 ∧ (∃ ct', w1.tobjs[c]? = some ct' ∧ ct'.defNs = ct.defNs) ∧
      ∃ dt', w1.tobjs[d]? = some dt' ∧ dt'.managed = dt.managed := by
    refine ⟨_, hl, ?_⟩
    split
    · exact ⟨⟨ct, hc, rfl⟩, dt, hd, rfl⟩
    · refine ⟨⟨_, List.getElem?_set_self (RHeap.lt_of_get hc), rfl⟩, ?_⟩
      by_cases e : c = d
      · subst e
        rw [hc] at hd
        cases hd
        exact ⟨_, List.getElem?_set_self (RHeap.lt_of_get hc), rfl⟩
      · exact ⟨dt, by rw [List.getElem?_set_ne e]; exact hd, rfl⟩
  clear hl
  obtain ⟨w1, hl, ⟨ct', hc', ec⟩, dt', hd', ed⟩ := h1
  have i1 := (link_inv inv hl).1
  have hlink : RP.link (some c) (some d) w = (.ok (), w1) := by rw [link_eq, hl]; rfl
  have e : RP.tAddDescendant (some c) [some d] w =
      ((match ct.defNs with
      | none => ret ()
      | some n => (tAddNamespace (some d) (some n)).bind fun _ => tSetDefaultNamespace (some d) n : Rec Unit) w1) := by
    unfold RP.tAddDescendant
    rw [each_one, bind_of hlink, deref_some, ret_bind, tenantAt_bind, hc']
    dsimp only
    rw [ec]
    cases ct.defNs <;> rfl
  rw [e, hl]
  cases ct.defNs with
  | none => simp
  | some n =>
    dsimp only
    cases hm : dt.managed with
    | false =>
      have : ((tAddNamespace (some d) (some n)).bind fun _ => tSetDefaultNamespace (some d) n) w1 = (.panic, w1) := by
        rw [Rec.bind, tAddNamespace, managed_eq, hd']
        simp [ed, hm]
      rw [this]
      simp
    | true =>
      obtain ⟨w2, h2, t2, i2⟩ := addData_ok i1 { tenant := .str dt'.id, namespace_ := .str n }
      have h3 : tAddNamespace (some d) (some n) w1 = (.ok (), w2) := by
        rw [tAddNamespace, managed_eq, hd']
        simp only [ed, hm, if_true]
        rw [deref_some, ret_bind, addData_eq, h2]
        rfl
      have h4 : ∃ v, tSetDefaultNamespace (some d) n w2 = (.ok (), v) := by
        rw [tSetDefaultNamespace, managed_eq, t2, hd']
        simp only [ed, hm, if_true]
        rw [deref_some, ret_bind, read_bind]
        split
        · exact ⟨_, rfl⟩
        · exact ⟨_, rfl⟩
      obtain ⟨v, h4⟩ := h4
      rw [bind_of h3, h4]
      simp

theorem derefAll_nil {l : List α} {rest : List (Option α)} : derefAll (l.map some ++ none :: rest) = .panic := by
  induction l with
  | nil => rfl
  | cons a l ih => rw [List.map_cons, List.cons_append, derefAll, ih]; rfl

/-- C118. `AddPermission` with nil after some attributes: a group that the role has keeps the attributes; a group that it does not
have is not created. -/
theorem C118_attributes (inv : w.Inv) {r : Nat} {ro : RoleObj} (hr : w.heap.roles[r]? = some ro) (hl : ro.lock = false) {group : Str}
    {as : List Attr} {rest : List (Option Attr)} :
    (RP.roleAddPermission (some r) group (as.map some ++ none :: rest) w).1 = .panic ∧
    (RP.roleAddPermission (some r) group (as.map some ++ none :: rest) w).2 =
      if (ro.perms.get group).isSome then (RP.roleAddPermission (some r) group (as.map some) w).2 else w := by
  unfold RP.roleAddPermission
  rw [deref_some, ret_bind, roleAt_bind, hr, ret_bind, roleAt_bind, hr]
  simp only [hl, Bool.false_eq_true, if_false]
  cases hg : ro.perms.get group with
  | none =>
    dsimp only
    rw [look_bind, derefAll_nil]
    exact ⟨rfl, rfl⟩
  | some ga =>
    have := inv.heap.perms ro (List.mem_of_getElem? hr) _ (GoMap.get_some_mem hg)
    have hga := List.getElem?_eq_getElem this
    dsimp only
    have hk := keep_eq hga (as := as)
    have h1 : RP.each (keepAttr ga) (as.map some ++ none :: rest) w = (.panic, putGroup w ga { w.heap.groups[ga] with perms := RHeap.addAttrsKeep w.heap.groups[ga].perms as }) := by
      rw [each_append, bind_of hk]; rfl
    rw [Rec.bind, h1, bind_of hk, roleAt_bind,
      show (putGroup w ga { w.heap.groups[ga] with perms := RHeap.addAttrsKeep w.heap.groups[ga].perms as }).heap.roles[r]? = some ro from hr]
    refine ⟨rfl, ?_⟩
    simp only [Option.isSome_some, if_true]
    rw [setRole, write_bind, ret_apply]
    have e : ({ ro with perms := ro.perms.set group ga } : RoleObj) = ro := by rw [set_same hg]
    rw [e]
    simp only [putGroup, setList_same hr]

/-- C118. `AddDescendant` of a role with nil after some roles adds these. -/
theorem C118_roles {r : Nat} {ro : RoleObj} (hr : w.heap.roles[r]? = some ro) (hl : ro.lock = false)
    {ds : List Nat} {rest : List (Option Nat)} :
    (RP.roleAddDescendant (some r) (ds.map some ++ none :: rest) w).1 = .panic ∧
    (RP.roleAddDescendant (some r) (ds.map some ++ none :: rest) w).2 = (RP.roleAddDescendant (some r) (ds.map some) w).2 := by
  unfold RP.roleAddDescendant
  rw [deref_some, ret_bind, roleAt_bind, hr, ret_bind, roleAt_bind, hr]
  simp only [hl, Bool.false_eq_true, if_false]
  have ha := descLoop_agrees (w := w) (r := r) (ds := ds)
  have hn : ∀ (ds : List Nat) (h : RHeap), RHeap.addDescendant.loop r h ds ≠ .diverge := by
    intro ds
    induction ds with
    | nil => intro h e; cases e
    | cons d ds ih =>
      intro h e
      rw [RHeap.addDescendant.loop] at e
      split at e
      · split at e
        · exact ih _ e
        · exact ih _ e
      · cases e
  generalize hf : (fun q : Option Nat => (deref q).bind fun d => (roleAt d).bind fun dro => (roleAt r).bind fun ro =>
      if (ro.desc.get dro.id).isSome then ret ()
      else setRole r { ro with desc := ro.desc.set dro.id d }) = f at ha ⊢
  have hfn : f none = fail := by rw [← hf]; rfl
  have h1 : ∃ v, RP.each f (ds.map some ++ none :: rest) w = (.panic, v) ∧ (RP.each f (ds.map some) w).2 = v := by
    rw [each_append]
    cases he : RP.each f (ds.map some) w with
    | mk a v =>
      cases a with
      | ok _ => rw [bind_of he, RP.each, hfn]; exact ⟨v, rfl, rfl⟩
      | panic => rw [Rec.bind, he]; exact ⟨v, rfl, rfl⟩
      | diverge =>
        rw [he] at ha
        cases hx : RHeap.addDescendant.loop r w.heap ds with
        | ok x => rw [hx] at ha; cases ha
        | panic => rw [hx] at ha; cases ha
        | diverge => exact absurd hx (hn _ _)
  obtain ⟨v, h1, h2⟩ := h1
  refine ⟨by rw [Rec.bind, h1], ?_⟩
  rw [Rec.bind, h1, Rec.bind]
  cases he : RP.each f (ds.map some) w with
  | mk a v' => rw [he] at h2; cases a <;> exact h2.symm

/-! ## A history -/

/-- Reading and writing of invoices. -/
def exRead : Attr := ⟨str "invoice", str "GET"⟩
def exWrite : Attr := ⟨str "invoice", str "PUT"⟩
def exDrop : Attr := ⟨str "invoice", str "DELETE"⟩

/-- Tenant "b" is not registered; nil is among the principals and among the attributes. -/
def exHistory : List NCall :=
  [.newTenant (str "a"), .newTenant (str "b"), .addTenants [some 0], .addNamespaces [some (str "n", 0)], .tSetDefaultNamespace (some 0) (str "n"),
   .tAddDescendant (some 0) [some 1], .addPrincipals [some (str "p", 0), none, some (str "q", 1)],
   .newRole (str "r"), .addRoles [some 0], .roleAddPermission (some 0) (str "g") [some exRead, none],
   .roleAddPermission (some 0) (str "g") [some exWrite], .roleAddPermission (some 0) (str "g") [some exRead, none, some exDrop],
   .tAddPrincipal (some 0) (str "p") true [str "r"], .tAddPrincipal (some 1) (str "p") true [str "r"], .tSetDefaultNamespace none (str "n")]

/-- The calls that panic. -/
def panics (w : Mgr) : List NCall → List Bool
  | [] => []
  | c :: cs => (match (c.go w).1 with | .panic => true | _ => false) :: panics (c.go w).2 cs

/-- What a history leads to. -/
def left (cs : List NCall) (f : Mgr → Bool) : Bool :=
  match runAll {} cs with
  | some w => f w
  | none => false

/-- C118. Six calls panic. The link to "b", the principal "p" and the second attribute stay, "q", the third attribute and the first
attempt to add attributes leave nothing; then "p" is granted what it should be, and "b" is among its tenants. -/
theorem C118_cases :
    panics {} exHistory = [false, false, false, false, false, true, true, false, false, true, false, true, false, true, true] ∧
    (left exHistory fun w => decide (w.principals.map (·.1) = [str "p"] ∧ w.log.length = 2 ∧
      w.heap.groups.map (fun g => g.perms.map (·.2)) = [[exWrite, exRead]] ∧ w.tobjs.map (fun t => t.desc.map (·.1)) = [[str "b"], []])) = true ∧
    (left exHistory fun w =>
      match RP.authorize .fwd 9 [] (str "p") [some (.tenant (.str (str "a"))), some (.namespace_ (.str (str "n"))), some (.group (.str (str "g"))), some (.activity (.str (str "invoice GET")))] w with
      | (.ok b, w') => b && decide (w'.pcache.get (str "p") = some [str "a", str "b"])
      | _ => false) = true ∧
    (left exHistory fun w =>
      match RP.authorize .fwd 9 [] (str "p") [some (.tenant (.str (str "a"))), some (.namespace_ (.str (str "n"))), some (.group (.str (str "g"))), some (.activity (.str (str "invoice DELETE")))] w with
      | (.ok b, _) => !b
      | _ => false) = true ∧
    (left exHistory fun w =>
      match RP.authorize .fwd 9 [] (str "p") [some (.tenant (.str (str "a"))), none] w, RP.authorize .fwd 9 [] (str "q") [none] w with
      | (.panic, _), (.ok b, _) => !b
      | _, _ => false) = true :=
  ⟨by decide +kernel, by decide +kernel, by decide +kernel, by decide +kernel, by decide +kernel⟩

end RP
end Verif
