import Verif.Model.TenantRace
import Verif.Props.TenantConc

/-!
# Data races on the fields of tenants (C113)
-/

namespace Verif
namespace NC

/-- The fields a call writes: `AddTenant` the manager of the tenant, `SetDefaultNamespace` and `AddDescendant` the default namespace of the tenant and
of the descendant. -/
inductive Op.Writes : Op → Field → Nat → Prop where
  | addTenant (x : Nat) : Writes (.addTenant x) .manager x
  | setDefault (x : Nat) (n : Str) : Writes (.tSetDefaultNamespace x n) .defaultNamespace x
  | descendant (c x : Nat) : Writes (.tAddDescendant c x) .defaultNamespace x

/-- The tenant a method is called on, except for `AddDescendant`. -/
def Op.on : Op → Option Nat
  | .tAddNamespace c _ | .tAddScopesToNamespace c _ _ | .tSetDefaultNamespace c _ | .tAddPrincipalInNamespace c _ _ _
  | .tAddRole c _ | .tAddScope c _ | .tAddPrincipalWithRole c _ _ _ | .tAddScopeToPrincipal c _ _ _ => some c
  | _ => none

/-- The fields a call reads: a method the manager of its tenant, a grant also the default namespace, `AddDescendant` the default namespace of the
tenant and the manager of the descendant. -/
inductive Op.Reads : Op → Field → Nat → Prop where
  | method {op : Op} {x : Nat} : op.on = some x → Reads op .manager x
  | role (x : Nat) (p r : Str) (m : Bool) : Reads (.tAddPrincipalWithRole x p r m) .defaultNamespace x
  | scope (x : Nat) (p s : Str) (m : Bool) : Reads (.tAddScopeToPrincipal x p s m) .defaultNamespace x
  | parent (x d : Nat) : Reads (.tAddDescendant x d) .defaultNamespace x
  | child (c x : Nat) : Reads (.tAddDescendant c x) .manager x

/-- The tenants and, for `AddPrincipalWithRole`, the role named exist. -/
def Op.Exist (w : Mgr) : Op → Prop
  | .addTenant c => ∃ t, HasId w c t
  | .tAddPrincipalWithRole c _ r _ => (∃ t, HasId w c t) ∧ (Reg.roles.Has w r ∨ ∃ (a : Nat) (ro : RoleObj), w.heap.roles[a]? = some ro ∧ ro.id = r)
  | .tAddDescendant c d => (∃ t, HasId w c t) ∧ ∃ t, HasId w d t
  | op => ∀ c, op.on = some c → ∃ t, HasId w c t

/-! ## A race is between calls that access the field -/

/-- All accesses in the rest of a call are these. -/
def Within (R W : Field → Nat → Prop) : Prog → Prop
  | .ret _ => True
  | .crash => True
  | .readMgr c k => R .manager c ∧ Within R W k
  | .writeMgr c k => W .manager c ∧ Within R W k
  | .get _ _ k => ∀ b, Within R W (k b)
  | .set _ _ _ k => Within R W k
  | .readDef c k => R .defaultNamespace c ∧ ∀ o, Within R W (k o)
  | .writeDef c _ k => W .defaultNamespace c ∧ Within R W k
  | .insert _ k => Within R W k
  | .getDesc _ _ k => ∀ b, Within R W (k b)
  | .setDesc _ _ _ k => Within R W k

theorem Within.step {R W : Field → Nat → Prop} {w w' : Mgr} {p p' : Prog} (h : Within R W p) (he : exec w p = .ok (w', p')) : Within R W p' := by
  cases p with
  | ret e => cases he
  | crash => cases he
  | readMgr a k => obtain ⟨rfl, rfl, _⟩ := exec_readMgr he; exact h.2
  | writeMgr a k => obtain ⟨t, h1, h2⟩ := onTenant_ok he; cases h2; exact h.2
  | get r y k => cases he; exact h _
  | set r y o k => cases he; exact h
  | readDef a k => obtain ⟨t, h1, h2⟩ := onTenant_ok he; cases h2; exact h.2 _
  | writeDef a n k => obtain ⟨t, h1, h2⟩ := onTenant_ok he; cases h2; exact h.2
  | insert d k => obtain ⟨rfl, h6⟩ := exec_insert he; exact h
  | getDesc a y k => obtain ⟨t, h1, h2⟩ := onTenant_ok he; cases h2; exact h _
  | setDesc a y d k => obtain ⟨t, h1, h2⟩ := onTenant_ok he; cases h2; exact h

theorem Within.register {R W : Field → Nat → Prop} (r : Reg) (id : Str) (obj : Nat) : Within R W (register r id obj) := by
  intro b; cases b <;> trivial

theorem Within.setDefault {R W : Field → Nat → Prop} {c : Nat} {n : Str} (h1 : R .manager c) (h2 : W .defaultNamespace c) :
    Within R W (setDefault c n (.ret none)) := by
  refine ⟨h1, fun b => ?_⟩
  cases b
  · trivial
  · exact ⟨h2, trivial⟩

theorem Within.grant {R W : Field → Nat → Prop} {c : Nat} {p : Str} {r : Reg} {x : Str} {err : Err} {row : Option Str → Data}
    (h1 : R .manager c) (h2 : R .defaultNamespace c) : Within R W (grant c p r x err row) := by
  refine ⟨h1, fun b => ?_⟩
  cases b
  · trivial
  refine ⟨h1, fun b => ?_⟩
  cases b
  · trivial
  refine ⟨h1, h2, fun o => ?_⟩
  cases o
  · trivial
  refine ⟨h1, h2, fun o => ?_⟩
  cases o <;> trivial

theorem Within.op (w : Mgr) (op : Op) : Within op.Reads op.Writes (op.prog w) := by
  have key : ∀ {c : Nat} {f : Str → Prog}, (∀ t, Within op.Reads op.Writes (f t)) → Within op.Reads op.Writes (Op.prog.tenant w c f) := by
    intro c f h
    unfold Op.prog.tenant
    split
    · trivial
    · exact h _
  cases op with
  | addTenant a =>
    rw [Op.prog]
    split
    · trivial
    · exact ⟨.addTenant a, .register _ _ _⟩
  | addNamespace id obj => exact .register _ _ _
  | addScope id obj => exact .register _ _ _
  | addPrincipal id obj => exact .register _ _ _
  | addRole r =>
    rw [Op.prog]
    split
    · trivial
    · exact .register _ _ _
  | tAddNamespace c n => rw [Op.prog]; exact key fun t => ⟨.method rfl, trivial⟩
  | tAddScopesToNamespace c n s => rw [Op.prog]; exact key fun t => ⟨.method rfl, trivial⟩
  | tSetDefaultNamespace c n => rw [Op.prog]; exact key fun t => .setDefault (.method rfl) (.setDefault c n)
  | tAddPrincipalInNamespace c p n r => rw [Op.prog]; exact key fun t => ⟨.method rfl, trivial⟩
  | tAddRole c r => rw [Op.prog]; exact key fun t => ⟨.method rfl, trivial⟩
  | tAddScope c s => rw [Op.prog]; exact key fun t => ⟨.method rfl, trivial⟩
  | tAddPrincipalWithRole c p r m => rw [Op.prog]; exact key fun t => .grant (.method rfl) (.role c p r m)
  | tAddScopeToPrincipal c p s m => rw [Op.prog]; exact key fun t => .grant (.method rfl) (.scope c p s m)
  | tAddDescendant c d =>
    rw [Op.prog]
    refine key fun _ => key fun t => ?_
    have hA : Within (Op.tAddDescendant c d).Reads (Op.tAddDescendant c d).Writes (lA c d t) := by
      refine ⟨.parent c d, fun o => ?_⟩
      cases o
      · trivial
      refine ⟨.parent c d, fun o => ?_⟩
      cases o
      · trivial
      refine ⟨.child c d, .parent c d, fun o => ?_⟩
      cases o
      · trivial
      exact .setDefault (.child c d) (.descendant c d)
    intro b
    cases b <;> exact hA

/-- What the goroutines are in was started by them, and accesses what the calls access. -/
theorem within_run {ss0 : List Sched} (ss : List Sched) : ∀ {c c' : Conf}, (∀ s ∈ ss, s ∈ ss0) →
    (∀ (i n : Nat) (op : Op) (p : Prog), c.th[i]? = some (some (n, op, p)) → .start i op ∈ ss0 ∧ Within op.Reads op.Writes p) → c.run ss = .ok c' →
    ∀ (i n : Nat) (op : Op) (p : Prog), c'.th[i]? = some (some (n, op, p)) → .start i op ∈ ss0 ∧ Within op.Reads op.Writes p := by
  induction ss with
  | nil => intro c c' _ h e; cases e; exact h
  | cons s ss ih =>
    intro c c' hsub h e
    obtain ⟨c1, e1, e2⟩ := Out.bind_eq_ok.1 e
    refine ih (fun s hs => hsub s (by simp [hs])) ?_ e2
    cases s with
    | start i op =>
      simp only [Conf.step] at e1
      split at e1
      · rename_i hi
        cases e1
        intro j n op' p hj
        by_cases ej : i = j
        · subst ej
          rw [List.getElem?_set_self (List.getElem?_eq_some_iff.1 hi).1] at hj
          cases hj
          exact ⟨hsub _ (by simp), Within.op c.w op⟩
        · rw [List.getElem?_set_ne ej] at hj; exact h j n op' p hj
      · cases e1
    | go i =>
      simp only [Conf.step] at e1
      split at e1
      · rename_i hi
        cases e1
        intro j n op' p hj
        by_cases ej : i = j
        · subst ej
          rw [List.getElem?_set_self (List.getElem?_eq_some_iff.1 hi).1] at hj
          cases hj
        · rw [List.getElem?_set_ne ej] at hj; exact h j n op' p hj
      · rename_i n0 op0 p0 hp hi
        obtain ⟨⟨w', p'⟩, hx, rfl⟩ := Out.map_eq_ok.1 e1
        intro j n op' p hj
        by_cases ej : i = j
        · subst ej
          rw [List.getElem?_set_self (List.getElem?_eq_some_iff.1 hi).1] at hj
          cases hj
          obtain ⟨a1, a2⟩ := h i _ _ _ hi
          exact ⟨a1, a2.step hx⟩
        · rw [List.getElem?_set_ne ej] at hj; exact h j n op' p hj
      · cases e1

theorem Within.plain {R W : Field → Nat → Prop} {p : Prog} (h : Within R W p) {f : Field} {x : Nat} {b : Bool} (hp : p.plain = some (f, x, b)) :
    if b then W f x else R f x := by
  cases p <;> simp only [Prog.plain, Option.some.injEq, Prod.mk.injEq, reduceCtorEq] at hp
  all_goals obtain ⟨rfl, rfl, rfl⟩ := hp; exact h.1

/-! ## Calls that access the field can race -/

/-- The tenant has a default namespace, and it is registered. -/
def HasDef (w : Mgr) (c : Nat) : Prop := ∃ n, DefIs w c n ∧ Reg.namespaces.Has w n

/-- What steps keep. -/
structure Le (w w' : Mgr) : Prop where
  mono : Mono w w'
  defs : ∀ c, HasDef w c → HasDef w' c
  trie : TrieInv dataKeys w.log w.trie → TrieInv dataKeys w'.log w'.trie

theorem Le.refl (w : Mgr) : Le w w := ⟨.refl w, fun _ h => h, id⟩

theorem Le.trans {u v w : Mgr} (h1 : Le u v) (h2 : Le v w) : Le u w :=
  ⟨h1.mono.trans h2.mono, fun c h => h2.defs c (h1.defs c h), h2.trie ∘ h1.trie⟩

/-- A goroutine gets from here to there. -/
inductive Steps : Mgr → Prog → Mgr → Prog → Prop where
  | refl {w : Mgr} {p : Prog} : Steps w p w p
  | step {w w1 w2 : Mgr} {p p1 p2 : Prog} : exec w p = .ok (w1, p1) → Steps w1 p1 w2 p2 → Steps w p w2 p2

/-- A goroutine gets to such a place without undoing anything. -/
def Reach (w : Mgr) (p : Prog) (Q : Mgr → Prog → Prop) : Prop := ∃ w' p', Steps w p w' p' ∧ Le w w' ∧ Q w' p'

theorem Reach.here {w : Mgr} {p : Prog} {Q : Mgr → Prog → Prop} (h : Q w p) : Reach w p Q := ⟨w, p, .refl, .refl w, h⟩

theorem Reach.one {w w1 : Mgr} {p p1 : Prog} {Q : Mgr → Prog → Prop} (he : exec w p = .ok (w1, p1)) (hl : Le w w1) (h : Reach w1 p1 Q) :
    Reach w p Q := by
  obtain ⟨w', p', h1, h2, h3⟩ := h
  exact ⟨w', p', .step he h1, hl.trans h2, h3⟩

theorem Reach.readMgr {w : Mgr} {c : Nat} {k : Prog} {Q : Mgr → Prog → Prop} (hm : Managed w c) (h : Reach w k Q) : Reach w (.readMgr c k) Q := by
  obtain ⟨o, a, b⟩ := hm
  exact .one (by simp [exec, onTenant, a, b]) (.refl w) h

theorem Reach.get {w : Mgr} {r : Reg} {x : Str} {k : Bool → Prog} {Q : Mgr → Prog → Prop} (hx : r.Has w x) (h : Reach w (k true) Q) :
    Reach w (.get r x k) Q := .one (by simp only [exec]; rw [show ((r.of w).get x).isSome = true from hx]) (.refl w) h

theorem Reach.readDef {w : Mgr} {c : Nat} {k : Option Str → Prog} {Q : Mgr → Prog → Prop} {n : Str} (hn : DefIs w c n) (h : Reach w (k (some n)) Q) :
    Reach w (.readDef c k) Q := by
  obtain ⟨o, a, b⟩ := hn
  exact .one (by simp [exec, onTenant, a, b]) (.refl w) h

theorem Reach.insert {w : Mgr} {d : Data} {k : Prog} {Q : Mgr → Prog → Prop} (tr : TrieInv dataKeys w.log w.trie)
    (h : ∀ w', Le w w' → w'.tobjs = w.tobjs → Reach w' k Q) : Reach w (.insert d k) Q := by
  obtain ⟨t, ht⟩ : ∃ t, w.trie.insert (some d) = .ok t := by
    rw [Trie.insert]; simp only [tr.keysEq, dataKeys]; exact ⟨_, rfl⟩
  have ha : w.addData d = .ok { w with trie := t, log := w.log ++ [d] } := by rw [Mgr.addData, ht]; rfl
  have hl : Le w { w with trie := t, log := w.log ++ [d] } := ⟨(mono_data ha).1, fun _ h => h, fun tr => tr.insert ht⟩
  exact .one (by simp [exec, ha, Out.map]) hl (h _ hl rfl)

theorem le_tobj {w : Mgr} {c : Nat} {t t' : TenantObj} (ht : w.tobjs[c]? = some t) (hid : t'.id = t.id) (hm : t.managed = true → t'.managed = true)
    (hd : t'.defNs = t.defNs ∨ ∃ n, t'.defNs = some n ∧ Reg.namespaces.Has w n) : Le w { w with tobjs := w.tobjs.set c t' } where
  mono := mono_tobj ht hid hm (by
    rcases hd with hd | ⟨n, hd, _⟩
    · rw [hd]; exact id
    · rw [hd]; exact fun _ => rfl)
  defs := fun a h => by
    obtain ⟨n, ⟨o, h1, h2⟩, h3⟩ := h
    have hl := (List.getElem?_eq_some_iff.1 ht).1
    by_cases e : c = a
    · subst e
      rw [ht] at h1; cases h1
      rcases hd with hd | ⟨m, hd, hm⟩
      · exact ⟨n, ⟨t', List.getElem?_set_self hl, hd.trans h2⟩, h3⟩
      · exact ⟨m, ⟨t', List.getElem?_set_self hl, hd⟩, hm⟩
    · exact ⟨n, ⟨o, by simp only [List.getElem?_set_ne e]; exact h1, h2⟩, h3⟩
  trie := id

/-- The descendant gets linked. -/
theorem Reach.link {w : Mgr} {c d : Nat} {did : Str} {k : Prog} {Q : Mgr → Prog → Prop} (hc : ∃ t, HasId w c t)
    (h : ∀ w', Le w w' → Reach w' k Q) : Reach w (.getDesc c did fun ok => if ok then k else .setDesc c did d k) Q := by
  obtain ⟨_, o, a, _⟩ := hc
  refine .one (w1 := w) (p1 := if (o.desc.get did).isSome then k else .setDesc c did d k) (by simp [exec, onTenant, a]) (.refl w) ?_
  split
  · exact h w (.refl w)
  · have hl : Le w { w with tobjs := w.tobjs.set c { o with desc := o.desc.set did d } } := le_tobj a rfl id (.inl rfl)
    exact .one (by simp [exec, onTenant, a]) hl (h _ hl)

/-- All the checks of the call are passed. -/
def Op.Ready (w : Mgr) : Op → Prop
  | .addTenant c => ∃ t, HasId w c t
  | .tSetDefaultNamespace c n => Managed w c ∧ Reg.namespaces.Has w n
  | .tAddPrincipalWithRole c p r _ => Managed w c ∧ Reg.principals.Has w p ∧ Reg.roles.Has w r
  | .tAddScopeToPrincipal c p s _ => Managed w c ∧ Reg.principals.Has w p ∧ Reg.scopes.Has w s
  | .tAddDescendant c d => HasDef w c ∧ Managed w d
  | op => ∀ c, op.on = some c → Managed w c

theorem Op.Ready.le {w w' : Mgr} (l : Le w w') {op : Op} (h : op.Ready w) : op.Ready w' := by
  have hm : ∀ {c}, Managed w c → Managed w' c := fun h => h.mono l.mono
  cases op with
  | addTenant c => exact h.imp fun t ht => ht.mono l.mono
  | tSetDefaultNamespace c n => exact ⟨hm h.1, h.2.mono l.mono⟩
  | tAddPrincipalWithRole c p r m => exact ⟨hm h.1, h.2.1.mono l.mono, h.2.2.mono l.mono⟩
  | tAddScopeToPrincipal c p s m => exact ⟨hm h.1, h.2.1.mono l.mono, h.2.2.mono l.mono⟩
  | tAddDescendant c d => exact ⟨l.defs c h.1, hm h.2⟩
  | addNamespace id obj => exact fun c e => hm (h c e)
  | addScope id obj => exact fun c e => hm (h c e)
  | addPrincipal id obj => exact fun c e => hm (h c e)
  | addRole r => exact fun c e => hm (h c e)
  | tAddNamespace c n => exact fun c e => hm (h c e)
  | tAddScopesToNamespace c n s => exact fun c e => hm (h c e)
  | tAddPrincipalInNamespace c p n r => exact fun c e => hm (h c e)
  | tAddRole c r => exact fun c e => hm (h c e)
  | tAddScope c s => exact fun c e => hm (h c e)

theorem Reach.tenant {w : Mgr} {c : Nat} {f : Str → Prog} {Q : Mgr → Prog → Prop} (hc : ∃ t, HasId w c t) (h : ∀ t, Reach w (f t) Q) :
    Reach w (Op.prog.tenant w c f) Q := by
  obtain ⟨t, o, a, b⟩ := hc
  unfold Op.prog.tenant
  rw [a]
  exact h _

theorem Managed.id {w : Mgr} {c : Nat} (h : Managed w c) : ∃ t, HasId w c t := by
  obtain ⟨o, a, _⟩ := h
  exact ⟨_, o, a, rfl⟩

theorem HasDef.id {w : Mgr} {c : Nat} (h : HasDef w c) : ∃ t, HasId w c t := by
  obtain ⟨_, ⟨o, a, _⟩, _⟩ := h
  exact ⟨_, o, a, rfl⟩

theorem Reach.grant {w : Mgr} (tr : TrieInv dataKeys w.log w.trie) {c : Nat} {p : Str} {r : Reg} {x : Str} {err : Err} {row : Option Str → Data}
    (hm : Managed w c) (hp : Reg.principals.Has w p) (hx : r.Has w x) :
    Reach w (NC.grant c p r x err row) fun _ q => q.plain = some (.defaultNamespace, c, false) :=
  .readMgr hm <| .get hp <| .readMgr hm <| .get hx <| .readMgr hm <| .insert tr fun _ _ _ => .here rfl

/-- A call gets to a read of a field that it reads. -/
theorem Op.Reads.reach {w : Mgr} (tr : TrieInv dataKeys w.log w.trie) {op : Op} {f : Field} {x : Nat} (h : op.Reads f x) (hr : op.Ready w) :
    Reach w (op.prog w) fun _ q => q.plain = some (f, x, false) := by
  cases h with
  | method ho =>
    cases op <;> simp only [Op.on, Option.some.injEq, reduceCtorEq] at ho
    all_goals subst ho; rw [Op.prog]
    · exact .tenant (hr _ rfl).id fun t => .here rfl
    · exact .tenant (hr _ rfl).id fun t => .here rfl
    · exact .tenant hr.1.id fun t => .here rfl
    · exact .tenant (hr _ rfl).id fun t => .here rfl
    · exact .tenant (hr _ rfl).id fun t => .here rfl
    · exact .tenant (hr _ rfl).id fun t => .here rfl
    · exact .tenant hr.1.id fun t => .here rfl
    · exact .tenant hr.1.id fun t => .here rfl
  | role x p r m => rw [Op.prog]; exact .tenant hr.1.id fun t => .grant tr hr.1 hr.2.1 hr.2.2
  | scope x p s m => rw [Op.prog]; exact .tenant hr.1.id fun t => .grant tr hr.1 hr.2.1 hr.2.2
  | parent x d =>
    rw [Op.prog]
    exact .tenant hr.1.id fun _ => .tenant hr.2.id fun t => .link hr.1.id fun w' l => .here rfl
  | child c x =>
    rw [Op.prog]
    refine .tenant hr.1.id fun _ => .tenant hr.2.id fun t => .link hr.1.id fun w' l => ?_
    obtain ⟨n, h1, h2⟩ := l.defs c hr.1
    exact .readDef h1 <| .readDef h1 <| .here rfl

/-- A call gets to a write of a field that it writes. -/
theorem Op.Writes.reach {w : Mgr} (tr : TrieInv dataKeys w.log w.trie) {op : Op} {f : Field} {x : Nat} (h : op.Writes f x) (hr : op.Ready w) :
    Reach w (op.prog w) fun _ q => q.plain = some (f, x, true) := by
  cases h with
  | addTenant x =>
    obtain ⟨t, o, a, b⟩ := hr
    rw [Op.prog]
    simp only [a]
    exact .here rfl
  | setDefault x n => rw [Op.prog]; exact .tenant hr.1.id fun t => .readMgr hr.1 <| .get hr.2 <| .here rfl
  | descendant c x =>
    rw [Op.prog]
    refine .tenant hr.1.id fun _ => .tenant hr.2.id fun t => .link hr.1.id fun w1 l1 => ?_
    obtain ⟨n, h1, h2⟩ := l1.defs c hr.1
    refine .readDef h1 <| .readDef h1 <| .readMgr (hr.2.mono l1.mono) <| .insert (l1.trie tr) fun w2 l2 ht => ?_
    have h3 : DefIs w2 c n := by unfold DefIs at h1 ⊢; rw [ht]; exact h1
    exact .readDef h3 <| .readMgr (hr.2.mono (l1.trans l2).mono) <| .get (h2.mono l2.mono) <| .here rfl

/-! ## Getting ready -/

theorem Out.run_append {c c1 c2 : Conf} {ss ts : List Sched} (h1 : c.run ss = .ok c1) (h2 : c1.run ts = .ok c2) : c.run (ss ++ ts) = .ok c2 := by
  induction ss generalizing c with
  | nil => cases h1; exact h2
  | cons s ss ih =>
    obtain ⟨c', e1, e2⟩ := Out.bind_eq_ok.1 h1
    simp only [List.cons_append, Conf.run, e1, Out.bind_ok]
    exact ih e2

theorem Steps.run {w w' : Mgr} {p p' : Prog} (h : Steps w p w' p') : ∀ {c : Conf} {i n : Nat} {op : Op}, c.w = w → c.th[i]? = some (some (n, op, p)) →
    ∃ ss, c.run ss = .ok { c with w := w', th := c.th.set i (some (n, op, p')) } := by
  induction h with
  | refl =>
    intro c i n op hw hi
    refine ⟨[], ?_⟩
    subst hw
    rw [set_same hi]; rfl
  | step he _ ih =>
    rename_i w w1 w2 p p1 p2 _
    intro c i n op hw hi
    have hp : ∀ e, p ≠ .ret e := by rintro e rfl; cases he
    subst hw
    have hl := (List.getElem?_eq_some_iff.1 hi).1
    have h1 : c.step (.go i) = .ok { c with w := w1, th := c.th.set i (some (n, op, p1)) } := by
      simp only [Conf.step]
      split
      · rename_i e; rw [hi] at e; cases e; exact absurd rfl (hp _)
      · rename_i e; rw [hi] at e; cases e; rw [he]; rfl
      · rename_i hno; exact absurd hi (hno n op p)
    obtain ⟨ss, h2⟩ := ih (c := { c with w := w1, th := c.th.set i (some (n, op, p1)) }) (i := i) (n := n) (op := op) rfl
      (List.getElem?_set_self hl)
    refine ⟨.go i :: ss, ?_⟩
    simp only [Conf.run, h1, Out.bind_ok, h2, List.set_set]

/-- Calls made by goroutine `i` lead to a situation with all goroutines where they were. -/
structure Prep (c c' : Conf) : Prop where
  run : ∃ ss, c.run ss = .ok c'
  th : c'.th = c.th
  le : Le c.w c'.w

theorem Prep.refl (c : Conf) : Prep c c := ⟨⟨[], rfl⟩, rfl, .refl _⟩

theorem Prep.trans {c c1 c2 : Conf} (h1 : Prep c c1) (h2 : Prep c1 c2) : Prep c c2 := by
  obtain ⟨ss, e1⟩ := h1.run
  obtain ⟨ts, e2⟩ := h2.run
  exact ⟨⟨_, Out.run_append e1 e2⟩, h2.th.trans h1.th, h1.le.trans h2.le⟩

/-- A call is made. -/
theorem prep_call {c : Conf} {i : Nat} (hi : c.th[i]? = some none) (op : Op) {Q : Mgr → Prop}
    (h : Reach c.w (op.prog c.w) fun w' q => Q w' ∧ ∃ e, q = .ret e) : ∃ c', Prep c c' ∧ Q c'.w := by
  obtain ⟨w', p', h1, h2, h3, e, rfl⟩ := h
  have hl := (List.getElem?_eq_some_iff.1 hi).1
  let c1 : Conf := { c with th := c.th.set i (some (c.hist.length, op, op.prog c.w)), hist := c.hist ++ [.call c.hist.length op] }
  have e1 : c.run [.start i op] = .ok c1 := by simp [Conf.run, Conf.step, hi, c1]
  obtain ⟨ss, e2⟩ := h1.run (c := c1) (i := i) (n := c.hist.length) (op := op) rfl (List.getElem?_set_self hl)
  let c2 : Conf := { c1 with w := w', th := c1.th.set i (some (c.hist.length, op, .ret e)) }
  have hi2 : c2.th[i]? = some (some (c.hist.length, op, .ret e)) := List.getElem?_set_self (by simp [c1, hl])
  let c3 : Conf := { c2 with th := c2.th.set i none, hist := c2.hist ++ [.ret c.hist.length op e] }
  have e3 : c2.run [.go i] = .ok c3 := by simp [Conf.run, Conf.step, hi2, c3]
  refine ⟨c3, ⟨⟨_, Out.run_append e1 (Out.run_append e2 e3)⟩, ?_, h2⟩, h3⟩
  show ((c.th.set i _).set i _).set i none = c.th
  rw [List.set_set, List.set_set, set_same hi]

theorem Reach.register {w : Mgr} (r : Reg) (x : Str) (obj : Nat) : Reach w (NC.register r x obj) fun w' q => r.Has w' x ∧ ∃ e, q = .ret e := by
  cases hb : ((r.of w).get x).isSome with
  | true => exact .get hb (.here ⟨hb, none, rfl⟩)
  | false =>
    have hl : Le w (r.put w ((r.of w).set x obj)) :=
      ⟨mono_put, fun c h => by
        obtain ⟨n, ⟨o, h1, h2⟩, h3⟩ := h
        exact ⟨n, ⟨o, by cases r <;> exact h1, h2⟩, h3.mono mono_put⟩, fun tr => by cases r <;> exact tr⟩
    refine .one (w1 := w) (p1 := .set r x obj (.ret none)) (by simp [NC.register, exec, hb]) (.refl w) (.one rfl hl (.here ⟨?_, none, rfl⟩))
    unfold Reg.Has
    rw [of_put, if_pos rfl, GoMap.get_set, if_pos rfl]
    rfl

theorem prep_tenant {c : Conf} {i : Nat} (hi : c.th[i]? = some none) {x : Nat} (hx : ∃ t, HasId c.w x t) : ∃ c', Prep c c' ∧ Managed c'.w x := by
  refine prep_call (Q := fun w => Managed w x) hi (.addTenant x) ?_
  obtain ⟨t, o, a, b⟩ := hx
  rw [Op.prog]
  simp only [a]
  have hl : Le c.w { c.w with tobjs := c.w.tobjs.set x { o with managed := true } } := le_tobj a rfl (fun _ => rfl) (.inl rfl)
  refine .one (p1 := NC.register .tenants o.id x) (by simp only [exec, onTenant, a]) hl ?_
  obtain ⟨w', p', h1, h2, _, h3⟩ := Reach.register (w := { c.w with tobjs := c.w.tobjs.set x { o with managed := true } }) .tenants o.id x
  exact ⟨w', p', h1, h2, Managed.mono h2.mono ⟨_, List.getElem?_set_self (List.getElem?_eq_some_iff.1 a).1, rfl⟩, h3⟩

theorem prep_default {c : Conf} {i : Nat} (hi : c.th[i]? = some none) {x : Nat} (hx : ∃ t, HasId c.w x t) : ∃ c', Prep c c' ∧ HasDef c'.w x := by
  obtain ⟨c1, p1, h1⟩ := prep_tenant hi hx
  have hi1 : c1.th[i]? = some none := by rw [p1.th]; exact hi
  obtain ⟨c2, p2, h2⟩ := prep_call hi1 (.addNamespace [] 0) (Reach.register .namespaces [] 0)
  have hi2 : c2.th[i]? = some none := by rw [p2.th]; exact hi1
  have hm := h1.mono p2.le.mono
  obtain ⟨c3, p3, h3⟩ := prep_call (Q := fun w => HasDef w x) hi2 (.tSetDefaultNamespace x []) (by
    rw [Op.prog]
    refine .tenant hm.id fun _ => .readMgr hm <| .get h2 ?_
    obtain ⟨o, a, b⟩ := hm
    show Reach c2.w (.writeDef x [] (.ret none)) _
    exact .one (w1 := { c2.w with tobjs := c2.w.tobjs.set x { o with defNs := some [] } }) (by simp only [exec, onTenant, a])
      (le_tobj a rfl id (.inr ⟨[], rfl, h2⟩))
      (.here ⟨⟨[], ⟨_, List.getElem?_set_self (List.getElem?_eq_some_iff.1 a).1, rfl⟩, h2⟩, none, rfl⟩))
  exact ⟨c3, p1.trans (p2.trans p3), h3⟩

/-- The checks of any call on what exists can be made to pass. -/
theorem prep_ready {c : Conf} {i : Nat} (hi : c.th[i]? = some none) {op : Op} (he : op.Exist c.w) : ∃ c', Prep c c' ∧ op.Ready c'.w := by
  have one : ∀ {x : Nat}, (∃ t, HasId c.w x t) → ∃ c', Prep c c' ∧ Managed c'.w x ∧ c'.th[i]? = some none := by
    intro x hx
    obtain ⟨c1, p1, h1⟩ := prep_tenant hi hx
    exact ⟨c1, p1, h1, by rw [p1.th]; exact hi⟩
  have all : (∀ x, op.on = some x → ∃ t, HasId c.w x t) → ∃ c', Prep c c' ∧ ∀ x, op.on = some x → Managed c'.w x := by
    intro h
    cases ho : op.on with
    | none => exact ⟨c, .refl c, fun x e => by cases e⟩
    | some x =>
      obtain ⟨c1, p1, h1, _⟩ := one (h x ho)
      exact ⟨c1, p1, fun y e => by cases e; exact h1⟩
  cases op with
  | addTenant x => exact ⟨c, .refl c, he⟩
  | addNamespace id obj => exact all he
  | addScope id obj => exact all he
  | addPrincipal id obj => exact all he
  | addRole r => exact all he
  | tAddNamespace x n => exact all he
  | tAddScopesToNamespace x n s => exact all he
  | tAddPrincipalInNamespace x p n r => exact all he
  | tAddRole x r => exact all he
  | tAddScope x s => exact all he
  | tSetDefaultNamespace x n =>
    obtain ⟨c1, p1, h1, hi1⟩ := one (he x rfl)
    obtain ⟨c2, p2, h2⟩ := prep_call hi1 (.addNamespace n 0) (Reach.register .namespaces n 0)
    exact ⟨c2, p1.trans p2, h1.mono p2.le.mono, h2⟩
  | tAddPrincipalWithRole x p r m =>
    obtain ⟨c1, p1, h1, hi1⟩ := one he.1
    obtain ⟨c2, p2, h2⟩ := prep_call hi1 (.addPrincipal p 0) (Reach.register .principals p 0)
    have hi2 : c2.th[i]? = some none := by rw [p2.th]; exact hi1
    rcases he.2 with h3 | ⟨a, ro, h3, rfl⟩
    · exact ⟨c2, p1.trans p2, h1.mono p2.le.mono, h2, h3.mono (p1.trans p2).le.mono⟩
    · have h4 : c2.w.heap.roles[a]? = some ro := by rw [(p1.trans p2).le.mono.heap]; exact h3
      obtain ⟨c3, p3, h5⟩ := prep_call (Q := fun w => Reg.roles.Has w ro.id) hi2 (.addRole a) (by
        rw [Op.prog]; simp only [h4]; exact Reach.register .roles ro.id a)
      exact ⟨c3, p1.trans (p2.trans p3), h1.mono (p2.trans p3).le.mono, h2.mono p3.le.mono, h5⟩
  | tAddScopeToPrincipal x p s m =>
    obtain ⟨c1, p1, h1, hi1⟩ := one (he x rfl)
    obtain ⟨c2, p2, h2⟩ := prep_call hi1 (.addPrincipal p 0) (Reach.register .principals p 0)
    have hi2 : c2.th[i]? = some none := by rw [p2.th]; exact hi1
    obtain ⟨c3, p3, h3⟩ := prep_call hi2 (.addScope s 0) (Reach.register .scopes s 0)
    exact ⟨c3, p1.trans (p2.trans p3), h1.mono (p2.trans p3).le.mono, h2.mono p3.le.mono, h3⟩
  | tAddDescendant x d =>
    obtain ⟨c1, p1, h1, hi1⟩ := one he.2
    obtain ⟨c2, p2, h2⟩ := prep_default hi1 (he.1.imp fun t ht => ht.mono p1.le.mono)
    exact ⟨c2, p1.trans p2, h2, h1.mono p2.le.mono⟩

theorem Op.Exist.mono {w w' : Mgr} (m : Mono w w') {op : Op} (h : op.Exist w) : op.Exist w' := by
  have hm : ∀ {c}, (∃ t, HasId w c t) → ∃ t, HasId w' c t := fun h => h.imp fun t ht => ht.mono m
  cases op with
  | addTenant x => exact hm h
  | tAddPrincipalWithRole x p r b =>
    refine ⟨hm h.1, ?_⟩
    rcases h.2 with h2 | h2
    · exact .inl (h2.mono m)
    · exact .inr (by rw [m.heap]; exact h2)
  | tAddDescendant x d => exact ⟨hm h.1, hm h.2⟩
  | addNamespace id obj => exact fun c e => hm (h c e)
  | addScope id obj => exact fun c e => hm (h c e)
  | addPrincipal id obj => exact fun c e => hm (h c e)
  | addRole r => exact fun c e => hm (h c e)
  | tAddNamespace x n => exact fun c e => hm (h c e)
  | tAddScopesToNamespace x n s => exact fun c e => hm (h c e)
  | tSetDefaultNamespace x n => exact fun c e => hm (h c e)
  | tAddPrincipalInNamespace x p n r => exact fun c e => hm (h c e)
  | tAddRole x r => exact fun c e => hm (h c e)
  | tAddScope x s => exact fun c e => hm (h c e)
  | tAddScopeToPrincipal x p s b => exact fun c e => hm (h c e)

/-- A call begins and gets there. -/
theorem Reach.begin {c : Conf} {i : Nat} (hi : c.th[i]? = some none) {op : Op} {Q : Prog → Prop} (h : Reach c.w (op.prog c.w) fun _ q => Q q) :
    ∃ ss c' n p, c.run ss = .ok c' ∧ Le c.w c'.w ∧ c'.th[i]? = some (some (n, op, p)) ∧ Q p ∧ ∀ j, i ≠ j → c'.th[j]? = c.th[j]? := by
  obtain ⟨w', p', h1, h2, h3⟩ := h
  have hl := (List.getElem?_eq_some_iff.1 hi).1
  let c1 : Conf := { c with th := c.th.set i (some (c.hist.length, op, op.prog c.w)), hist := c.hist ++ [.call c.hist.length op] }
  have e1 : c.run [.start i op] = .ok c1 := by simp [Conf.run, Conf.step, hi, c1]
  obtain ⟨ss, e2⟩ := h1.run (c := c1) (i := i) (n := c.hist.length) (op := op) rfl (List.getElem?_set_self hl)
  refine ⟨_, _, c.hist.length, p', Out.run_append e1 e2, h2, List.getElem?_set_self (by simp [c1, hl]), h3, fun j hj => ?_⟩
  show ((c.th.set i _).set i _)[j]? = _
  rw [List.set_set, List.getElem?_set_ne hj]

/-- C113. Between which calls there can be a race, for any two goroutines and any state in which the tenants and roles that the calls name exist:
those of which one writes a field of a tenant that the other reads or writes. -/
theorem C113_exact {w : Mgr} (inv : w.Inv) {k i j : Nat} (hi : i < k) (hj : j < k) {a b : Op} (ha : a.Exist w) (hb : b.Exist w) (f : Field) (x : Nat) :
    (∃ ss c, (Conf.start w k).run ss = .ok c ∧ c.RaceBy i j a b f x) ↔ i ≠ j ∧ a.Writes f x ∧ (b.Reads f x ∨ b.Writes f x) := by
  constructor
  · rintro ⟨ss, c, e, hij, n, m, p, q, wr, h1, h2, h3, h4⟩
    have key := within_run (ss0 := ss) ss (fun _ h => h) (by
      intro i n op p h
      simp [Conf.start, List.getElem?_replicate] at h) e
    have h5 := (key i n a p h1).2.plain h3
    have h6 := (key j m b q h2).2.plain h4
    refine ⟨hij, h5, ?_⟩
    cases wr
    · exact .inl h6
    · exact .inr h6
  · rintro ⟨hij, h1, h2⟩
    have idle : ∀ {l : Nat}, l < k → (Conf.start w k).th[l]? = some none := by
      intro l hl; simp [Conf.start, hl]
    obtain ⟨c1, p1, r1⟩ := prep_ready (idle hi) ha
    have hi1 : c1.th[i]? = some none := by rw [p1.th]; exact idle hi
    obtain ⟨c2, p2, r2⟩ := prep_ready (op := b) hi1 (hb.mono p1.le.mono)
    have hi2 : c2.th[i]? = some none := by rw [p2.th]; exact hi1
    have hj2 : c2.th[j]? = some none := by rw [p2.th, p1.th]; exact idle hj
    have tr2 := (p1.trans p2).le.trie inv.trie
    obtain ⟨ss3, c3, n, p, e3, l3, t3, q3, o3⟩ := Reach.begin (Q := fun q => q.plain = some (f, x, true)) hi2 (h1.reach tr2 (r1.le p2.le))
    have hj3 : c3.th[j]? = some none := by rw [o3 j hij]; exact hj2
    have tr3 := l3.trie tr2
    obtain ⟨wr, hw⟩ : ∃ wr, Reach c3.w (b.prog c3.w) fun _ q => q.plain = some (f, x, wr) := by
      rcases h2 with h2 | h2
      · exact ⟨false, h2.reach tr3 (r2.le l3)⟩
      · exact ⟨true, h2.reach tr3 (r2.le l3)⟩
    obtain ⟨ss4, c4, m, q, e4, l4, t4, q4, o4⟩ := Reach.begin (Q := fun q => q.plain = some (f, x, wr)) hj3 hw
    obtain ⟨ss1, e1⟩ := (p1.trans p2).run
    exact ⟨_, c4, Out.run_append e1 (Out.run_append e3 e4), hij, n, m, p, q, wr, by rw [o4 i (Ne.symm hij)]; exact t3, t4, q3, q4⟩

/-- The full claim: goroutines using tenants never race. -/
def C113_full : Prop :=
  ∀ (w : Mgr) (k : Nat) (ss : List Sched) (c : Conf), w.Inv → (Conf.start w k).run ss = .ok c → ∀ i j a b f x, ¬ c.RaceBy i j a b f x

/-- C113, partial: there is no race on a field of a tenant in a run in which no two goroutines make calls of which one writes the field and the other reads
or writes it, whatever the state. -/
theorem C113_apart_partial {w : Mgr} {k : Nat} {ss : List Sched} {c : Conf} {f : Field} {x : Nat}
    (hq : ∀ i j a b, i ≠ j → .start i a ∈ ss → .start j b ∈ ss → a.Writes f x → ¬ b.Reads f x ∧ ¬ b.Writes f x)
    (e : (Conf.start w k).run ss = .ok c) (i j : Nat) (a b : Op) : ¬ c.RaceBy i j a b f x := by
  rintro ⟨hij, n, m, p, q, wr, h1, h2, h3, h4⟩
  have key := within_run (ss0 := ss) ss (fun _ h => h) (by
    intro i n op p h
    simp [Conf.start, List.getElem?_replicate] at h) e
  obtain ⟨s1, w1⟩ := key i n a p h1
  obtain ⟨s2, w2⟩ := key j m b q h2
  obtain ⟨a1, a2⟩ := hq i j a b hij s1 s2 (w1.plain h3)
  have h6 := w2.plain h4
  cases wr
  · exact a1 h6
  · exact a2 h6

/-- The field `manager` is written by `AddTenant` alone: once the tenants that are used have been added, there is no race on it. -/
theorem C113_manager {w : Mgr} {k : Nat} {ss : List Sched} {c : Conf} {x : Nat} (hq : ∀ i, .start i (.addTenant x) ∉ ss)
    (e : (Conf.start w k).run ss = .ok c) (i j : Nat) (a b : Op) : ¬ c.RaceBy i j a b .manager x := by
  refine C113_apart_partial (fun i j a b _ h1 _ h2 => ?_) e i j a b
  cases h2
  exact absurd h1 (hq i)

/-- C113 is violated: a default namespace is set while a role is granted. -/
theorem C113_counterexample : ∃ ss c, (Conf.start exTwo 2).run ss = .ok c ∧
    c.RaceBy 0 1 (.tSetDefaultNamespace 0 (str "m")) (.tAddPrincipalWithRole 0 (str "p") (str "r") false) .defaultNamespace 0 := by
  have hid : ∃ t, HasId exTwo 0 t := ⟨str "a", by
    have : exTwo.tobjs[0]?.map (·.id) = some (str "a") := by decide +kernel
    obtain ⟨o, h1, h2⟩ := Option.map_eq_some_iff.1 this
    exact ⟨o, h1, h2⟩⟩
  refine (C113_exact exTwo_inv (by decide) (by decide) ?_ ?_ _ _).2 ⟨by decide, .setDefault _ _, .inl (.role _ _ _ _)⟩
  · intro c e; cases e; exact hid
  · exact ⟨hid, .inl (by unfold Reg.Has; decide +kernel)⟩

theorem C113_full_false : ¬ C113_full := by
  intro h
  obtain ⟨ss, c, e, r⟩ := C113_counterexample
  exact h _ _ ss c exTwo_inv e _ _ _ _ _ _ r

/-- A schedule with a race between `AddDescendant`, about to write the default namespace of the descendant, and a grant in it. -/
example : ((Conf.start exTwo 2).run ([.start 0 (.tAddDescendant 0 1)] ++ List.replicate 9 (.go 0) ++
    [.start 1 (.tAddPrincipalWithRole 1 (str "p") (str "r") true)] ++ List.replicate 6 (.go 1))).map
      (fun c => c.th.map fun t => t.bind fun t => t.2.2.plain) =
    .ok [some (.defaultNamespace, 1, true), some (.defaultNamespace, 1, false)] := by decide +kernel

/-- `C113_apart_partial` applies to the two goroutines of the example of `C112_defaults_set` and the first tenant. -/
example (c : Conf) (e : (Conf.start exTwo 2).run exCalm = .ok c) (i j : Nat) (a b : Op) : ¬ c.RaceBy i j a b .defaultNamespace 0 := by
  refine C113_apart_partial (fun i j a b _ h1 _ h2 => ?_) e i j a b
  cases h2 <;> simp [exCalm] at h1

end NC
end Verif
