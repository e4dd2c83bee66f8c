import Mathlib.Data.List.Basic
import Mathlib.Data.List.Count
import Mathlib.Data.List.Nodup
import Verif.Model.TenantConc
import Verif.Props.Grants
import Verif.Props.Origin

/-!
# Tenant methods called from several goroutines (C112)
-/

namespace Verif
namespace NC

/-! ## What it means that calls act one at a time -/

/-- A call made while no other call is in progress. -/
def Op.seq (w : Mgr) : Op → Out (Option Err × Mgr)
  | .addTenant a => (w.addTenant a).map fun x => (none, x.2)
  | .addNamespace id obj => .ok (none, (w.addNamespace id obj).2)
  | .addScope id obj => .ok (none, (w.addScope id obj).2)
  | .addPrincipal id obj => .ok (none, (w.addPrincipal id obj).2)
  | .addRole r => (w.addRole r).map fun x => (none, x.2)
  | .tAddNamespace c n => (w.tAddNamespace c n).map fun w' => (none, w')
  | .tAddScopesToNamespace c n s => (w.tAddScopesToNamespace c n s).map fun w' => (none, w')
  | .tSetDefaultNamespace c n => (w.tSetDefaultNamespace c n).map fun w' => (none, w')
  | .tAddPrincipalInNamespace c p n r => (w.tAddPrincipalInNamespace c p n r).map fun w' => (none, w')
  | .tAddRole c r => (w.tAddRole c r).map fun w' => (none, w')
  | .tAddScope c s => (w.tAddScope c s).map fun w' => (none, w')
  | .tAddPrincipalWithRole c p r m => w.tAddPrincipalWithRole c p r m
  | .tAddScopeToPrincipal c p s m => w.tAddScopeToPrincipal c p s m
  | .tAddDescendant c d => (w.tAddDescendant c [d]).map fun w' => (none, w')

/-- The calls listed, made one after the other, return what is listed and lead from one state to the other. -/
inductive SeqRun : Mgr → List (Nat × Op × Option Err) → Mgr → Prop where
  | nil {w : Mgr} : SeqRun w [] w
  | snoc {w v u : Mgr} {L : List (Nat × Op × Option Err)} {n : Nat} {op : Op} {e : Option Err} :
      SeqRun w L v → op.seq v = .ok (e, u) → SeqRun w (L ++ [(n, op, e)]) u

/-- The same tenants with the same default namespaces, descendants and manager, the same identifiers registered, the same roles,
groups, attributes and caches, and the same rows inserted, in some order. -/
structure Same (v w : Mgr) : Prop where
  size : v.tobjs.length = w.tobjs.length
  tenants : ∀ (c : Nat) (s t : TenantObj), v.tobjs[c]? = some s → w.tobjs[c]? = some t →
    s.id = t.id ∧ s.managed = t.managed ∧ s.defNs = t.defNs ∧ ∀ x, s.desc.get x = t.desc.get x
  heap : v.heap = w.heap
  attributes : v.attributes = w.attributes
  attrGroups : v.attrGroups = w.attrGroups
  hierarchy : v.hierarchy = w.hierarchy
  pcache : v.pcache = w.pcache
  regs : ∀ (r : Reg) id, ((r.of v).get id).isSome = ((r.of w).get id).isSome
  rows : v.log.Perm w.log

/-- No goroutine is in a call. -/
def Conf.Quiet (c : Conf) : Prop := ∀ t ∈ c.th, t = none

/-- `L` lists the calls that returned, once each, with their results; a call that returned before another began is before it;
made one after the other in this order the calls return these results and end in a state that is the same. -/
structure OneAtATime (w0 : Mgr) (c : Conf) (L : List (Nat × Op × Option Err)) : Prop where
  calls : ∀ n op e, (n, op, e) ∈ L ↔ Ev.ret n op e ∈ c.hist
  once : (L.map (·.1)).Nodup
  order : ∀ m n op op' e, [Ev.ret m op e, Ev.call n op'].Sublist c.hist → [m, n].Sublist (L.map (·.1))
  same : ∃ v, SeqRun w0 L v ∧ Same v c.w

/-- C112 in full: however calls of tenant methods and registrations interleave, once they all returned it is as if they had been made one
at a time. -/
def C112_full : Prop :=
  ∀ (w : Mgr) (k : Nat) (ss : List Sched) (c : Conf), w.Inv → (Conf.start w k).run ss = .ok c → c.Quiet → ∃ L, OneAtATime w c L

/-! ## Facts that stay true -/

/-- What other goroutines cannot undo. -/
structure Mono (w w' : Mgr) : Prop where
  ten : ∀ (c : Nat) (t : TenantObj), w.tobjs[c]? = some t → ∃ t' : TenantObj, w'.tobjs[c]? = some t' ∧ t'.id = t.id ∧ (t.managed = true → t'.managed = true) ∧
    (t.defNs.isSome → t'.defNs.isSome)
  reg : ∀ (r : Reg) id, ((r.of w).get id).isSome → ((r.of w').get id).isSome
  heap : w'.heap = w.heap
  len : w'.tobjs.length = w.tobjs.length

theorem Mono.refl (w : Mgr) : Mono w w := ⟨fun _ t h => ⟨t, h, rfl, id, id⟩, fun _ _ h => h, rfl, rfl⟩

/-- The tenant at `c` has this identifier. -/
def HasId (w : Mgr) (c : Nat) (t : Str) : Prop := ∃ o, w.tobjs[c]? = some o ∧ o.id = t

/-- The tenant at `c` has a manager. -/
def Managed (w : Mgr) (c : Nat) : Prop := ∃ o, w.tobjs[c]? = some o ∧ o.managed = true

/-- The identifier is registered. -/
def Reg.Has (w : Mgr) (r : Reg) (id : Str) : Prop := ((r.of w).get id).isSome

/-- The default namespace of the tenant at `c` is this one. -/
def DefIs (w : Mgr) (c : Nat) (n : Str) : Prop := ∃ o, w.tobjs[c]? = some o ∧ o.defNs = some n

/-- The tenant at `c` has the tenant at `d` as its descendant under this identifier. -/
def Linked (w : Mgr) (c : Nat) (x : Str) (d : Nat) : Prop := ∃ o, w.tobjs[c]? = some o ∧ o.desc.get x = some d

theorem HasId.mono {w w' : Mgr} {c : Nat} {t : Str} (m : Mono w w') (h : HasId w c t) : HasId w' c t := by
  obtain ⟨o, h1, h2⟩ := h
  obtain ⟨o', h3, h4, _⟩ := m.ten c o h1
  exact ⟨o', h3, h4.trans h2⟩

theorem HasId.back {w w' : Mgr} {c : Nat} {t : Str} (m : Mono w w') (h : HasId w' c t) : HasId w c t := by
  obtain ⟨o, h1, h2⟩ := h
  have hl : c < w.tobjs.length := m.len ▸ (List.getElem?_eq_some_iff.1 h1).1
  obtain ⟨o', h3, h4, _⟩ := m.ten c _ (List.getElem?_eq_getElem hl)
  rw [h1] at h3; cases h3
  exact ⟨_, List.getElem?_eq_getElem hl, h4.symm.trans h2⟩

theorem Managed.mono {w w' : Mgr} {c : Nat} (m : Mono w w') (h : Managed w c) : Managed w' c := by
  obtain ⟨o, h1, h2⟩ := h
  obtain ⟨o', h3, _, h4, _⟩ := m.ten c o h1
  exact ⟨o', h3, h4 h2⟩

theorem Reg.Has.mono {w w' : Mgr} {r : Reg} {id : Str} (m : Mono w w') (h : r.Has w id) : r.Has w' id := m.reg r id h

theorem of_put (w : Mgr) (r r' : Reg) (m : GoMap Str Nat) : r'.of (r.put w m) = if r' = r then m else r'.of w := by
  cases r <;> cases r' <;> rfl

theorem mono_put {w : Mgr} {r : Reg} {y : Str} {obj : Nat} : Mono w (r.put w ((r.of w).set y obj)) where
  ten := fun c t h => ⟨t, by cases r <;> exact h, rfl, id, id⟩
  reg := fun r' x h => by
    rw [of_put]
    split
    · rename_i e; subst e
      rw [GoMap.get_set]; split
      · rfl
      · exact h
    · exact h
  heap := by cases r <;> rfl
  len := by cases r <;> rfl

theorem mono_tobj {w : Mgr} {c : Nat} {t t' : TenantObj} (ht : w.tobjs[c]? = some t) (hid : t'.id = t.id)
    (hm : t.managed = true → t'.managed = true) (hd : t.defNs.isSome → t'.defNs.isSome) :
    Mono w { w with tobjs := w.tobjs.set c t' } where
  ten := fun x o h => by
    by_cases e : c = x
    · subst e
      rw [ht] at h; cases h
      exact ⟨t', List.getElem?_set_self (List.getElem?_eq_some_iff.1 ht).1, hid, hm, hd⟩
    · exact ⟨o, by simpa [List.getElem?_set_ne e] using h, rfl, id, id⟩
  reg := fun r x h => by cases r <;> exact h
  heap := rfl
  len := by simp

theorem mono_data {w w' : Mgr} {d : Data} (h : w.addData d = .ok w') :
    Mono w w' ∧ w'.tobjs = w.tobjs ∧ w'.heap = w.heap ∧ w'.attributes = w.attributes ∧ w'.attrGroups = w.attrGroups ∧
      w'.hierarchy = w.hierarchy ∧ w'.pcache = w.pcache ∧ (∀ r : Reg, r.of w' = r.of w) ∧ w'.log = w.log ++ [d] := by
  obtain ⟨t, _, rfl⟩ := Out.map_eq_ok.1 h
  refine ⟨⟨fun c o ho => ⟨o, ho, rfl, id, id⟩, fun r x hx => ?_, rfl, rfl⟩, rfl, rfl, rfl, rfl, rfl, rfl, fun r => ?_, rfl⟩
  · cases r <;> exact hx
  · cases r <;> rfl

/-- Every step keeps these facts. -/
theorem exec_mono {w w' : Mgr} {p p' : Prog} (h : exec w p = .ok (w', p')) : Mono w w' := by
  have key : ∀ {c : Nat} {f : TenantObj → Out (Mgr × Prog)}, onTenant w c f = .ok (w', p') →
      ∃ t, w.tobjs[c]? = some t ∧ f t = .ok (w', p') := by
    intro c f h
    unfold onTenant at h
    split at h
    · cases h
    · exact ⟨_, by assumption, h⟩
  cases p with
  | ret e => cases h
  | crash => cases h
  | readMgr c k =>
    obtain ⟨t, _, h2⟩ := key h
    split at h2
    · cases h2; exact .refl _
    · cases h2
  | writeMgr c k => obtain ⟨t, h1, h2⟩ := key h; cases h2; exact mono_tobj h1 rfl (fun _ => rfl) id
  | get r x k => cases h; exact .refl _
  | set r x obj k => cases h; exact mono_put
  | readDef c k => obtain ⟨t, _, h2⟩ := key h; cases h2; exact .refl _
  | writeDef c n k => obtain ⟨t, h1, h2⟩ := key h; cases h2; exact mono_tobj h1 rfl id (fun _ => rfl)
  | insert d k => obtain ⟨v, h1, h2⟩ := Out.map_eq_ok.1 h; cases h2; exact (mono_data h1).1
  | getDesc c x k => obtain ⟨t, _, h2⟩ := key h; cases h2; exact .refl _
  | setDesc c x d k => obtain ⟨t, h1, h2⟩ := key h; cases h2; exact mono_tobj h1 rfl id id

/-! ## Where a call stands -/

/-- What a call has done ahead of, or has left to do after, the point at which it takes effect: the result if it has
taken effect, the rows inserted before, the rows still to insert, the tenant still to register, the descendant linked before. -/
structure Ghost where
  lin : Option (Option Err) := none
  early : List Data := []
  pend : List Data := []
  pt : List Str := []
  links : List (Nat × Str × Nat) := []

/-- The calls that add one row. -/
inductive RowOp (t : Str) : Op → Nat → Data → Prop where
  | ns (c n) : RowOp t (.tAddNamespace c n) c { tenant := .str t, namespace_ := .str n }
  | nsScope (c n s) : RowOp t (.tAddScopesToNamespace c n s) c { tenant := .str t, namespace_ := .str n, scope := .str s }
  | prin (c p n r) : RowOp t (.tAddPrincipalInNamespace c p n r) c
      { tenant := .str t, namespace_ := .str n, role := .str r, principal := .str p }
  | role (c r) : RowOp t (.tAddRole c r) c { tenant := .str t, role := .str r }
  | scope (c s) : RowOp t (.tAddScope c s) c { tenant := .str t, scope := .str s }

/-- The registrations other than of tenants. -/
inductive RegOp (h : RHeap) : Op → Reg → Str → Nat → Prop where
  | ns (id obj) : RegOp h (.addNamespace id obj) .namespaces id obj
  | scope (id obj) : RegOp h (.addScope id obj) .scopes id obj
  | prin (id obj) : RegOp h (.addPrincipal id obj) .principals id obj
  | role (r) {ro : RoleObj} : h.roles[r]? = some ro → RegOp h (.addRole r) .roles ro.id r

/-- The grants. -/
inductive GrantOp (t : Str) : Op → Nat → Str → Reg → Str → Err → (Option Str → Data) → Prop where
  | role (c p r m) : GrantOp t (.tAddPrincipalWithRole c p r m) c p .roles r .noRole fun n =>
      { tenant := .str t, namespace_ := nsVal n, principal := .str p, role := .str r, manage := .bool m }
  | scope (c p s m) : GrantOp t (.tAddScopeToPrincipal c p s m) c p .scopes s .noScope fun n =>
      { tenant := .str t, namespace_ := nsVal n, scope := .str s, principal := .str p, manage := .bool m }

/-- The pieces of `grant`. -/
def gE (c : Nat) (row : Option Str → Data) : Prog := .readDef c fun o =>
  match o with
  | none => .crash
  | some n => .insert (row (some n)) (.ret none)

def gD (c : Nat) (row : Option Str → Data) : Prog := .readDef c fun o =>
  match o with
  | none => .ret none
  | some _ => .readMgr c (gE c row)

def gC (c : Nat) (row : Option Str → Data) : Prog := .insert (row none) (gD c row)

def gB (c : Nat) (r : Reg) (x : Str) (err : Err) (row : Option Str → Data) : Prog :=
  .get r x fun ok => if ok then .readMgr c (gC c row) else .ret (some err)

def gA (c : Nat) (p : Str) (r : Reg) (x : Str) (err : Err) (row : Option Str → Data) : Prog :=
  .get .principals p fun ok => if ok then .readMgr c (gB c r x err row) else .ret (some .noPrincipal)

theorem grant_eq (c p r x err row) : grant c p r x err row = .readMgr c (gA c p r x err row) := rfl

/-- The pieces of `link`. -/
def lD (c d : Nat) : Prog := .readDef c fun o =>
  match o with
  | none => .crash
  | some n => setDefault d n (.ret none)

def lC (c d : Nat) (did n : Str) : Prog := .insert { tenant := .str did, namespace_ := .str n } (lD c d)

def lB (c d : Nat) (did : Str) : Prog := .readDef c fun o =>
  match o with
  | none => .crash
  | some n => .readMgr d (lC c d did n)

def lA (c d : Nat) (did : Str) : Prog := .readDef c fun o =>
  match o with
  | none => .ret none
  | some _ => lB c d did

theorem link_eq (c d did) : link c d did = .getDesc c did fun ok => if ok then lA c d did else .setDesc c did d (lA c d did) := rfl

/-- Where a call stands, with what has been established on the way. -/
inductive At (w : Mgr) : Op → Prog → Ghost → Prop where
  | done {op e} : At w op (.ret e) { lin := some e }
  | crash {op g} : g.lin = none → At w op .crash g
  | row0 {t op c d} : RowOp t op c d → HasId w c t → At w op (addRow c d) {}
  | row1 {t op c d} : RowOp t op c d → HasId w c t → Managed w c → At w op (.insert d (.ret none)) {}
  | reg0 {op r x obj} : RegOp w.heap op r x obj → At w op (register r x obj) {}
  | reg1 {op r x obj} : RegOp w.heap op r x obj → At w op (.set r x obj (.ret none)) {}
  | ten0 {a x} : HasId w a x → At w (.addTenant a) (.writeMgr a (register .tenants x a)) {}
  | ten1 {a x} : At w (.addTenant a) (register .tenants x a) { lin := some none, pt := [x] }
  | ten2 {a x} : At w (.addTenant a) (.set .tenants x a (.ret none)) { lin := some none, pt := [x] }
  | def0 {c n} : At w (.tSetDefaultNamespace c n) (setDefault c n (.ret none)) {}
  | def1 {c n} : Managed w c → At w (.tSetDefaultNamespace c n)
      (.get .namespaces n fun ok => if ok then .writeDef c n (.ret none) else .ret none) {}
  | def2 {c n} : Managed w c → Reg.namespaces.Has w n → At w (.tSetDefaultNamespace c n) (.writeDef c n (.ret none)) {}
  | g0 {t op c p r x err row} : GrantOp t op c p r x err row → HasId w c t → At w op (.readMgr c (gA c p r x err row)) {}
  | g1 {t op c p r x err row} : GrantOp t op c p r x err row → HasId w c t → Managed w c → At w op (gA c p r x err row) {}
  | g2 {t op c p r x err row} : GrantOp t op c p r x err row → HasId w c t → Managed w c → Reg.principals.Has w p →
      At w op (.readMgr c (gB c r x err row)) {}
  | g3 {t op c p r x err row} : GrantOp t op c p r x err row → HasId w c t → Managed w c → Reg.principals.Has w p →
      At w op (gB c r x err row) {}
  | g4 {t op c p r x err row} : GrantOp t op c p r x err row → HasId w c t → Managed w c → Reg.principals.Has w p → r.Has w x →
      At w op (.readMgr c (gC c row)) {}
  | g5 {t op c p r x err row} : GrantOp t op c p r x err row → HasId w c t → Managed w c → Reg.principals.Has w p → r.Has w x →
      At w op (gC c row) {}
  | g6 {t op c p r x err row} : GrantOp t op c p r x err row → HasId w c t → Managed w c → Reg.principals.Has w p → r.Has w x →
      At w op (gD c row) { early := [row none] }
  | g7 {t op c p r x err row} : GrantOp t op c p r x err row → HasId w c t → Managed w c → Reg.principals.Has w p → r.Has w x →
      At w op (.readMgr c (gE c row)) { early := [row none] }
  | g8 {t op c p r x err row} : GrantOp t op c p r x err row → HasId w c t → Managed w c → Reg.principals.Has w p → r.Has w x →
      At w op (gE c row) { early := [row none] }
  | g9 {op d} : At w op (.insert d (.ret none)) { lin := some none, pend := [d] }
  | l0 {c d t did} : HasId w c t → HasId w d did → At w (.tAddDescendant c d)
      (.getDesc c did fun ok => if ok then lA c d did else .setDesc c did d (lA c d did)) {}
  | l1 {c d t did} : HasId w c t → HasId w d did → At w (.tAddDescendant c d) (.setDesc c did d (lA c d did)) {}
  | l2 {c d did} : HasId w d did → Linked w c did d → At w (.tAddDescendant c d) (lA c d did) { links := [(c, did, d)] }
  | l3 {c d did n} : HasId w d did → Linked w c did d → DefIs w c n → At w (.tAddDescendant c d) (lB c d did) { links := [(c, did, d)] }
  | l4 {c d did n} : HasId w d did → Linked w c did d → DefIs w c n → At w (.tAddDescendant c d) (.readMgr d (lC c d did n))
      { links := [(c, did, d)] }
  | l5 {c d did n} : HasId w d did → Linked w c did d → DefIs w c n → Managed w d → At w (.tAddDescendant c d) (lC c d did n)
      { links := [(c, did, d)] }
  | l6 {c d did n} : HasId w d did → Linked w c did d → DefIs w c n → Managed w d → At w (.tAddDescendant c d) (lD c d)
      { links := [(c, did, d)], early := [{ tenant := .str did, namespace_ := .str n }] }
  | l7 {c d did n} : HasId w d did → Linked w c did d → DefIs w c n → Managed w d → At w (.tAddDescendant c d) (setDefault d n (.ret none))
      { links := [(c, did, d)], early := [{ tenant := .str did, namespace_ := .str n }] }
  | l8 {c d did n} : HasId w d did → Linked w c did d → DefIs w c n → Managed w d → At w (.tAddDescendant c d)
      (.get .namespaces n fun ok => if ok then .writeDef d n (.ret none) else .ret none)
      { links := [(c, did, d)], early := [{ tenant := .str did, namespace_ := .str n }] }
  | l9 {c d did n} : HasId w d did → Linked w c did d → DefIs w c n → Managed w d → Reg.namespaces.Has w n →
      At w (.tAddDescendant c d) (.writeDef d n (.ret none))
      { links := [(c, did, d)], early := [{ tenant := .str did, namespace_ := .str n }] }

theorem At.mono {w w' : Mgr} (m : Mono w w') {op : Op} {p : Prog} {g : Ghost} (hl : ∀ c x e, Linked w c x e → Linked w' c x e)
    (hd : ∀ c d n, op = .tAddDescendant c d → DefIs w c n → DefIs w' c n) (h : At w op p g) : At w' op p g := by
  cases h with
  | done => exact .done
  | crash h => exact .crash h
  | row0 h1 h2 => exact .row0 h1 (h2.mono m)
  | row1 h1 h2 h3 => exact .row1 h1 (h2.mono m) (h3.mono m)
  | reg0 h1 => exact .reg0 (m.heap ▸ h1)
  | reg1 h1 => exact .reg1 (m.heap ▸ h1)
  | ten0 h1 => exact .ten0 (h1.mono m)
  | ten1 => exact .ten1
  | ten2 => exact .ten2
  | def0 => exact .def0
  | def1 h1 => exact .def1 (h1.mono m)
  | def2 h1 h2 => exact .def2 (h1.mono m) (h2.mono m)
  | g0 h1 h2 => exact .g0 h1 (h2.mono m)
  | g1 h1 h2 h3 => exact .g1 h1 (h2.mono m) (h3.mono m)
  | g2 h1 h2 h3 h4 => exact .g2 h1 (h2.mono m) (h3.mono m) (h4.mono m)
  | g3 h1 h2 h3 h4 => exact .g3 h1 (h2.mono m) (h3.mono m) (h4.mono m)
  | g4 h1 h2 h3 h4 h5 => exact .g4 h1 (h2.mono m) (h3.mono m) (h4.mono m) (h5.mono m)
  | g5 h1 h2 h3 h4 h5 => exact .g5 h1 (h2.mono m) (h3.mono m) (h4.mono m) (h5.mono m)
  | g6 h1 h2 h3 h4 h5 => exact .g6 h1 (h2.mono m) (h3.mono m) (h4.mono m) (h5.mono m)
  | g7 h1 h2 h3 h4 h5 => exact .g7 h1 (h2.mono m) (h3.mono m) (h4.mono m) (h5.mono m)
  | g8 h1 h2 h3 h4 h5 => exact .g8 h1 (h2.mono m) (h3.mono m) (h4.mono m) (h5.mono m)
  | g9 => exact .g9
  | l0 h1 h2 => exact .l0 (h1.mono m) (h2.mono m)
  | l1 h1 h2 => exact .l1 (h1.mono m) (h2.mono m)
  | l2 h1 h2 => exact .l2 (h1.mono m) (hl _ _ _ h2)
  | l3 h1 h2 h3 => exact .l3 (h1.mono m) (hl _ _ _ h2) (hd _ _ _ rfl h3)
  | l4 h1 h2 h3 => exact .l4 (h1.mono m) (hl _ _ _ h2) (hd _ _ _ rfl h3)
  | l5 h1 h2 h3 h4 => exact .l5 (h1.mono m) (hl _ _ _ h2) (hd _ _ _ rfl h3) (h4.mono m)
  | l6 h1 h2 h3 h4 => exact .l6 (h1.mono m) (hl _ _ _ h2) (hd _ _ _ rfl h3) (h4.mono m)
  | l7 h1 h2 h3 h4 => exact .l7 (h1.mono m) (hl _ _ _ h2) (hd _ _ _ rfl h3) (h4.mono m)
  | l8 h1 h2 h3 h4 => exact .l8 (h1.mono m) (hl _ _ _ h2) (hd _ _ _ rfl h3) (h4.mono m)
  | l9 h1 h2 h3 h4 h5 => exact .l9 (h1.mono m) (hl _ _ _ h2) (hd _ _ _ rfl h3) (h4.mono m) (h5.mono m)

/-- A call begins at one of these places. -/
theorem At.first (w : Mgr) (op : Op) : At w op (op.prog w) {} := by
  have key : ∀ c (f : Str → Prog), (∀ t, HasId w c t → At w op (f t) {}) → At w op (Op.prog.tenant w c f) {} := by
    intro c f h
    unfold Op.prog.tenant
    split
    · exact .crash rfl
    · rename_i t ht; exact h _ ⟨t, ht, rfl⟩
  cases op with
  | addTenant a =>
    simp only [Op.prog]
    split
    · exact .crash rfl
    · rename_i t ht; exact .ten0 ⟨t, ht, rfl⟩
  | addNamespace x obj => exact .reg0 (.ns _ _)
  | addScope x obj => exact .reg0 (.scope _ _)
  | addPrincipal x obj => exact .reg0 (.prin _ _)
  | addRole r =>
    simp only [Op.prog]
    split
    · exact .crash rfl
    · rename_i ro hr; exact .reg0 (.role _ hr)
  | tAddNamespace c n => exact key c _ fun t ht => .row0 (.ns _ _) ht
  | tAddScopesToNamespace c n s => exact key c _ fun t ht => .row0 (.nsScope _ _ _) ht
  | tSetDefaultNamespace c n => exact key c _ fun t ht => .def0
  | tAddPrincipalInNamespace c p n r => exact key c _ fun t ht => .row0 (.prin _ _ _ _) ht
  | tAddRole c r => exact key c _ fun t ht => .row0 (.role _ _) ht
  | tAddScope c s => exact key c _ fun t ht => .row0 (.scope _ _) ht
  | tAddPrincipalWithRole c p r m => exact key c _ fun t ht => .g0 (.role _ _ _ _) ht
  | tAddScopeToPrincipal c p s m => exact key c _ fun t ht => .g0 (.scope _ _ _ _) ht
  | tAddDescendant c d => exact key c _ fun t ht => key d _ fun u hu => .l0 ht hu

/-! ## Calls made alone -/

theorem RowOp.seq {w : Mgr} (inv : w.Inv) {t : Str} {op : Op} {c : Nat} {d : Data} (h : RowOp t op c d) (hi : HasId w c t)
    (hm : Managed w c) : ∃ w', op.seq w = .ok (none, w') ∧ Inserted w w' [d] := by
  obtain ⟨o, h1, rfl⟩ := hi
  obtain ⟨o', h2, h3⟩ := hm
  rw [h1] at h2; cases h2
  obtain ⟨w', h4, h5⟩ := Inserted.one inv d
  refine ⟨w', ?_, h5⟩
  cases h <;>
    simp only [Op.seq, Mgr.tAddNamespace, Mgr.tAddScopesToNamespace, Mgr.tAddPrincipalInNamespace, Mgr.tAddRole, Mgr.tAddScope,
      Mgr.withTenant, h1, h3, if_true, h4] <;> rfl

theorem RegOp.seq {w : Mgr} {op : Op} {r : Reg} {x : Str} {obj : Nat} (h : RegOp w.heap op r x obj) :
    r ≠ .tenants ∧ op.seq w = .ok (none, r.put w (Verif.register (r.of w) x obj).2) := by
  cases h with
  | ns => exact ⟨by decide, rfl⟩
  | scope => exact ⟨by decide, rfl⟩
  | prin => exact ⟨by decide, rfl⟩
  | role r hr => exact ⟨by decide, by simp only [Op.seq, Mgr.addRole, hr]; rfl⟩

theorem GrantOp.noPrin {w : Mgr} {t : Str} {op : Op} {c : Nat} {p : Str} {r : Reg} {x : Str} {err : Err}
    {row : Option Str → Data} (h : GrantOp t op c p r x err row) (hm : Managed w c) (hp : ¬ Reg.principals.Has w p) :
    op.seq w = .ok (some .noPrincipal, w) := by
  obtain ⟨o, h2, h3⟩ := hm
  have hp' : w.principals.get p = none := by simpa [Reg.Has, Reg.of] using hp
  cases h <;> simp [Op.seq, Mgr.tAddPrincipalWithRole, Mgr.tAddScopeToPrincipal, Mgr.withTenant, h2, h3, hp']

theorem GrantOp.noX {w : Mgr} {t : Str} {op : Op} {c : Nat} {p : Str} {r : Reg} {x : Str} {err : Err}
    {row : Option Str → Data} (h : GrantOp t op c p r x err row) (hm : Managed w c) (hp : Reg.principals.Has w p) (hx : ¬ r.Has w x) :
    op.seq w = .ok (some err, w) := by
  obtain ⟨o, h2, h3⟩ := hm
  obtain ⟨y, hy⟩ := Option.isSome_iff_exists.1 hp
  have hy' : w.principals.get p = some y := hy
  cases h <;> (simp [Reg.Has, Reg.of] at hx; simp [Op.seq, Mgr.tAddPrincipalWithRole, Mgr.tAddScopeToPrincipal, Mgr.withTenant, h2, h3, hy', hx])

theorem GrantOp.ok {w : Mgr} (inv : w.Inv) {t : Str} {op : Op} {c : Nat} {p : Str} {r : Reg} {x : Str} {err : Err}
    {row : Option Str → Data} (h : GrantOp t op c p r x err row) {o : TenantObj} (ho : w.tobjs[c]? = some o) (hi : o.id = t)
    (hm : o.managed = true) (hp : Reg.principals.Has w p) (hx : r.Has w x) :
    ∃ w', op.seq w = .ok (none, w') ∧ Inserted w w' (row none :: o.defNs.toList.map fun n => row (some n)) := by
  subst hi
  cases h with
  | role _ _ _ m =>
    obtain ⟨e, w', h1, _, _, h2, _, h3⟩ := C35_addPrincipalWithRole inv ho hm p x m
    cases h2.2 ⟨isKnown_iff.2 hp, isKnown_iff.2 hx⟩
    refine ⟨w', h1, ?_⟩
    have := h3 rfl
    unfold roleRows at this
    cases hd : o.defNs <;> rw [hd] at this <;> exact this
  | scope _ _ _ m =>
    obtain ⟨e, w', h1, _, _, h2, _, h3⟩ := C35_addScopeToPrincipal inv ho hm p x m
    cases h2.2 ⟨isKnown_iff.2 hp, isKnown_iff.2 hx⟩
    refine ⟨w', h1, ?_⟩
    have := h3 rfl
    unfold scopeRows at this
    cases hd : o.defNs <;> rw [hd] at this <;> exact this

/-! ## The state beside the state reached by making calls alone -/

/-- Two heaps of tenants that differ in the links `K` only, which the second has. -/
structure Objs (A B : List TenantObj) (K : List (Nat × Str × Nat)) : Prop where
  len : A.length = B.length
  obj : ∀ (c : Nat) (s t : TenantObj), A[c]? = some s → B[c]? = some t →
    s.id = t.id ∧ s.managed = t.managed ∧ s.defNs = t.defNs ∧ ∀ x d, t.desc.get x = some d ↔ s.desc.get x = some d ∨ (c, x, d) ∈ K

theorem Objs.get {A B : List TenantObj} {K : List (Nat × Str × Nat)} (h : Objs A B K) {c : Nat} {t : TenantObj} (ht : B[c]? = some t) :
    ∃ s, A[c]? = some s ∧ s.id = t.id ∧ s.managed = t.managed ∧ s.defNs = t.defNs ∧
      ∀ x d, t.desc.get x = some d ↔ s.desc.get x = some d ∨ (c, x, d) ∈ K := by
  have hl : c < A.length := h.len ▸ (List.getElem?_eq_some_iff.1 ht).1
  exact ⟨_, List.getElem?_eq_getElem hl, h.obj c _ t (List.getElem?_eq_getElem hl) ht⟩

theorem Objs.set {A B : List TenantObj} {K K' : List (Nat × Str × Nat)} (h : Objs A B K) {c : Nat} {s t : TenantObj}
    (ho : s.id = t.id ∧ s.managed = t.managed ∧ s.defNs = t.defNs ∧ ∀ x d, t.desc.get x = some d ↔ s.desc.get x = some d ∨ (c, x, d) ∈ K')
    (hK : ∀ c' x d, c' ≠ c → ((c', x, d) ∈ K' ↔ (c', x, d) ∈ K)) : Objs (A.set c s) (B.set c t) K' where
  len := by simpa using h.len
  obj := fun c' s' t' h1 h2 => by
    by_cases e : c = c'
    · subst e
      rw [List.getElem?_set] at h1 h2
      simp only [if_true] at h1 h2
      split at h1
      · split at h2
        · cases h1; cases h2; exact ho
        · cases h2
      · cases h1
    · rw [List.getElem?_set_ne e] at h1 h2
      obtain ⟨a1, a2, a3, a4⟩ := h.obj c' s' t' h1 h2
      exact ⟨a1, a2, a3, fun x d => by rw [a4 x d, hK c' x d (Ne.symm e)]⟩

theorem set_same {α : Type} {l : List α} {i : Nat} {x : α} (h : l[i]? = some x) : l.set i x = l := by
  obtain ⟨hi, rfl⟩ := List.getElem?_eq_some_iff.1 h
  exact List.set_getElem_self hi

/-- `S` is the state reached by making the calls that have taken effect one at a time, `w` is the state; `E` and `K` are the rows and links
made by calls that have not taken effect, `P` and `T` are the rows and tenants left to insert by calls that have. -/
structure Rel (S w : Mgr) (E P : List Data) (T : List Str) (K : List (Nat × Str × Nat)) : Prop where
  objs : Objs S.tobjs w.tobjs K
  heap : S.heap = w.heap
  attributes : S.attributes = w.attributes
  attrGroups : S.attrGroups = w.attrGroups
  hierarchy : S.hierarchy = w.hierarchy
  pcache : S.pcache = w.pcache
  reg : ∀ r : Reg, r ≠ .tenants → ∀ x, ((r.of S).get x).isSome = ((r.of w).get x).isSome
  ten : ∀ x, (S.tenants.get x).isSome ↔ (w.tenants.get x).isSome ∨ x ∈ T
  rows : ∀ d, S.log.count d + E.count d = w.log.count d + P.count d

theorem Rel.congr {S w : Mgr} {E P E' P' : List Data} {T T' : List Str} {K K' : List (Nat × Str × Nat)} (h : Rel S w E P T K)
    (hE : E.Perm E') (hP : P.Perm P') (hT : T.Perm T') (hK : K.Perm K') : Rel S w E' P' T' K' :=
  { h with
    objs := ⟨h.objs.len, fun c s t h1 h2 => by
      obtain ⟨a1, a2, a3, a4⟩ := h.objs.obj c s t h1 h2
      exact ⟨a1, a2, a3, fun x d => by rw [a4 x d, hK.mem_iff]⟩⟩
    ten := fun x => by rw [h.ten x, hT.mem_iff]
    rows := fun d => by rw [← hE.count_eq, ← hP.count_eq]; exact h.rows d }

/-- The state after tenants and rows changed. -/
theorem Rel.change {S w : Mgr} {E P E' P' : List Data} {T : List Str} {K K' : List (Nat × Str × Nat)} (h : Rel S w E P T K)
    {A B : List TenantObj} {tS tw : Trie Data} {l m : List Data} (ho : Objs A B K')
    (hc : ∀ d, l.count d + E'.count d + P.count d = m.count d + P'.count d + E.count d) :
    Rel { S with tobjs := A, trie := tS, log := S.log ++ l } { w with tobjs := B, trie := tw, log := w.log ++ m } E' P' T K' where
  objs := ho
  heap := h.heap
  attributes := h.attributes
  attrGroups := h.attrGroups
  hierarchy := h.hierarchy
  pcache := h.pcache
  reg := fun r hr x => by have := h.reg r hr x; cases r <;> exact this
  ten := h.ten
  rows := fun d => by
    simp only [List.count_append]
    have h1 := h.rows d
    have h2 := hc d
    omega

theorem GrantOp.ne {t : Str} {op : Op} {c : Nat} {p : Str} {r : Reg} {x : Str} {err : Err} {row : Option Str → Data}
    (h : GrantOp t op c p r x err row) : r ≠ .tenants := by cases h <;> decide

/-- Rows inserted in both states or in one of them. -/
theorem Rel.insert {S S' w w' : Mgr} {E P E' P' : List Data} {T : List Str} {K : List (Nat × Str × Nat)} (h : Rel S w E P T K) {l m : List Data}
    (hS : Inserted S S' l) (hw : Inserted w w' m) (hc : ∀ d, l.count d + E'.count d + P.count d = m.count d + P'.count d + E.count d) :
    Rel S' w' E' P' T K := by
  unfold Inserted at hS hw
  rw [hS, hw]
  exact h.change h.objs hc

theorem Inserted.of_addData {w w' : Mgr} {d : Data} (h : w.addData d = .ok w') : Inserted w w' [d] := by
  obtain ⟨t, _, rfl⟩ := Out.map_eq_ok.1 h; rfl

theorem onTenant_ok {α : Type} {w : Mgr} {c : Nat} {f : TenantObj → Out α} {y : α} (h : onTenant w c f = .ok y) :
    ∃ t, w.tobjs[c]? = some t ∧ f t = .ok y := by
  unfold onTenant at h
  split at h
  · cases h
  · exact ⟨_, by assumption, h⟩

theorem exec_readMgr {w w' : Mgr} {c : Nat} {k p' : Prog} (h : exec w (.readMgr c k) = .ok (w', p')) :
    w' = w ∧ p' = k ∧ Managed w c := by
  obtain ⟨t, h1, h2⟩ := onTenant_ok h
  split at h2
  · cases h2; exact ⟨rfl, rfl, t, h1, by assumption⟩
  · cases h2

theorem exec_insert {w w' : Mgr} {d : Data} {k p' : Prog} (h : exec w (.insert d k) = .ok (w', p')) :
    p' = k ∧ w.addData d = .ok w' := by
  obtain ⟨v, h1, h2⟩ := Out.map_eq_ok.1 h
  cases h2; exact ⟨rfl, h1⟩

/-- What `AddDescendant` does to the tenant that gets a descendant. -/
def linked (t : TenantObj) (x : Str) (d : Nat) : TenantObj := if (t.desc.get x).isSome then t else { t with desc := t.desc.set x d }

theorem linked_set {S : Mgr} {c d : Nat} {ct : TenantObj} {x : Str} (hc : S.tobjs[c]? = some ct) :
    (if (ct.desc.get x).isSome then S else { S with tobjs := S.tobjs.set c { ct with desc := ct.desc.set x d } }) =
      { S with tobjs := S.tobjs.set c (linked ct x d) } := by
  unfold linked
  split
  · rw [set_same hc]
  · rfl

theorem desc_none {S : Mgr} {c d : Nat} {ct dt : TenantObj} (hc : S.tobjs[c]? = some ct) (hd : S.tobjs[d]? = some dt) (hn : ct.defNs = none) :
    (Op.tAddDescendant c d).seq S = .ok (none, { S with tobjs := S.tobjs.set c (linked ct dt.id d) }) := by
  simp only [Op.seq, Mgr.tAddDescendant, hc, hd, linked_set hc]
  rw [hn]
  rfl

theorem desc_some {S : Mgr} (inv : S.Inv) {c d : Nat} {ct dt d1 : TenantObj} {n : Str} (hc : S.tobjs[c]? = some ct) (hd : S.tobjs[d]? = some dt)
    (hn : ct.defNs = some n) (h1 : (S.tobjs.set c (linked ct dt.id d))[d]? = some d1) (hi : d1.id = dt.id) (hm : d1.managed = true) :
    ∃ tr, (Op.tAddDescendant c d).seq S = .ok (none, { S with
      tobjs := if (S.namespaces.get n).isSome then (S.tobjs.set c (linked ct dt.id d)).set d { d1 with defNs := some n } else S.tobjs.set c (linked ct dt.id d),
      trie := tr, log := S.log ++ [{ tenant := .str dt.id, namespace_ := .str n }] }) := by
  obtain ⟨v, h2, h3⟩ := Inserted.one inv { tenant := .str dt.id, namespace_ := .str n }
  obtain ⟨tr, h4, h5⟩ := Out.map_eq_ok.1 h2
  refine ⟨tr, ?_⟩
  simp only [Op.seq, Mgr.tAddDescendant, hc, hd, linked_set hc]
  rw [hn]
  simp only [Mgr.tAddNamespace, Mgr.tSetDefaultNamespace, Mgr.withTenant, h1, hm, if_true, Mgr.addData, hi, h4, Out.map, Out.bind_ok]
  split <;> rfl

theorem linked_id (t : TenantObj) (x : Str) (d : Nat) : (linked t x d).id = t.id ∧ (linked t x d).managed = t.managed ∧
    (linked t x d).defNs = t.defNs := by unfold linked; split <;> exact ⟨rfl, rfl, rfl⟩

/-- The link made early is made now. -/
theorem Objs.link {A B : List TenantObj} {K : List (Nat × Str × Nat)} {c d : Nat} {x : Str} (h : Objs A B ((c, x, d) :: K)) {s t : TenantObj}
    (hs : A[c]? = some s) (ht : B[c]? = some t) (hl : t.desc.get x = some d) : Objs (A.set c (linked s x d)) B K := by
  obtain ⟨a1, a2, a3, a4⟩ := h.obj c s t hs ht
  obtain ⟨b1, b2, b3⟩ := linked_id s x d
  rw [← set_same ht]
  refine h.set ⟨b1.trans a1, b2.trans a2, b3.trans a3, fun y e => ?_⟩ (fun c' y e hne => by simp [hne])
  rw [a4 y e]
  unfold linked
  split
  · rename_i hx
    obtain ⟨e0, he0⟩ := Option.isSome_iff_exists.1 hx
    have : e0 = d := by
      have h1 := (a4 x e0).2 (.inl he0)
      rw [hl] at h1; exact (Option.some.inj h1).symm
    subst this
    simp only [List.mem_cons, Prod.mk.injEq, true_and]
    constructor
    · rintro (h1 | ⟨rfl, rfl⟩ | h1)
      · exact .inl h1
      · exact .inl he0
      · exact .inr h1
    · rintro (h1 | h1)
      · exact .inl h1
      · exact .inr (.inr h1)
  · rename_i hx
    have hx' : s.desc.get x = none := by simpa using hx
    simp only [List.mem_cons, Prod.mk.injEq, true_and]
    rw [GoMap.get_set]
    by_cases e1 : x = y
    · subst e1
      simp only [if_true, hx', Option.some.injEq, true_and]
      constructor
      · rintro (h1 | h1 | h1)
        · cases h1
        · exact .inl h1.symm
        · exact .inr h1
      · rintro (h1 | h1)
        · exact .inr (.inl h1.symm)
        · exact .inr (.inr h1)
    · simp only [if_neg e1]
      constructor
      · rintro (h1 | ⟨rfl, _⟩ | h1)
        · exact .inl h1
        · exact absurd rfl e1
        · exact .inr h1
      · rintro (h1 | h1)
        · exact .inl h1
        · exact .inr (.inr h1)

/-- Both heaps change the default namespace of a tenant. -/
theorem Objs.setDef {A B : List TenantObj} {K : List (Nat × Str × Nat)} (h : Objs A B K) {c : Nat} {s t : TenantObj} (hs : A[c]? = some s)
    (ht : B[c]? = some t) (n : Str) : Objs (A.set c { s with defNs := some n }) (B.set c { t with defNs := some n }) K := by
  obtain ⟨a1, a2, _, a4⟩ := h.obj c s t hs ht
  exact h.set ⟨a1, a2, rfl, a4⟩ (fun _ _ _ _ => Iff.rfl)

/-- Both heaps give a tenant its manager. -/
theorem Objs.setMgr {A B : List TenantObj} {K : List (Nat × Str × Nat)} (h : Objs A B K) {c : Nat} {s t : TenantObj} (hs : A[c]? = some s)
    (ht : B[c]? = some t) : Objs (A.set c { s with managed := true }) (B.set c { t with managed := true }) K := by
  obtain ⟨a1, _, a3, a4⟩ := h.obj c s t hs ht
  exact h.set ⟨a1, rfl, a3, a4⟩ (fun _ _ _ _ => Iff.rfl)

/-- A link that the second heap has may be taken for one made early. -/
theorem Objs.early {A B : List TenantObj} {K : List (Nat × Str × Nat)} (h : Objs A B K) {c d : Nat} {x : Str} {t : TenantObj}
    (ht : B[c]? = some t) (hl : t.desc.get x = some d) : Objs A B ((c, x, d) :: K) := by
  obtain ⟨s, hs, _⟩ := h.get ht
  obtain ⟨a1, a2, a3, a4⟩ := h.obj c s t hs ht
  rw [← set_same hs, ← set_same ht]
  refine h.set ⟨a1, a2, a3, fun y e => ?_⟩ (fun c' y e hne => by simp [hne])
  simp only [List.mem_cons, Prod.mk.injEq, true_and]
  constructor
  · intro h1; rcases (a4 y e).1 h1 with h2 | h2
    · exact .inl h2
    · exact .inr (.inr h2)
  · rintro (h1 | ⟨rfl, rfl⟩ | h1)
    · exact (a4 y e).2 (.inl h1)
    · exact hl
    · exact (a4 y e).2 (.inr h1)

/-- A link made early. -/
theorem Objs.setDesc {A B : List TenantObj} {K : List (Nat × Str × Nat)} (h : Objs A B K) {c d : Nat} {x : Str} {t : TenantObj}
    (ht : B[c]? = some t) (hu : ∀ e, t.desc.get x = some e → e = d) :
    Objs A (B.set c { t with desc := t.desc.set x d }) ((c, x, d) :: K) := by
  obtain ⟨s, hs, _⟩ := h.get ht
  obtain ⟨a1, a2, a3, a4⟩ := h.obj c s t hs ht
  have : Objs (A.set c s) (B.set c { t with desc := t.desc.set x d }) ((c, x, d) :: K) := by
    refine h.set ⟨a1, a2, a3, fun y e => ?_⟩ (fun c' y e hne => by simp [hne])
    simp only [List.mem_cons, Prod.mk.injEq, true_and]
    rw [GoMap.get_set]
    by_cases e1 : x = y
    · subst e1
      simp only [if_true, Option.some.injEq, true_and]
      constructor
      · intro h1; exact .inr (.inl h1.symm)
      · rintro (h1 | h1 | h1)
        · exact (hu e ((a4 x e).2 (.inl h1))).symm
        · exact h1.symm
        · exact (hu e ((a4 x e).2 (.inr h1))).symm
    · rw [if_neg e1, a4 y e]
      constructor
      · rintro (h1 | h1)
        · exact .inl h1
        · exact .inr (.inr h1)
      · rintro (h1 | ⟨rfl, _⟩ | h1)
        · exact .inl h1
        · exact absurd rfl e1
        · exact .inr h1
  rwa [set_same hs] at this

/-- One step of a call, and what it means for the calls made one at a time: nothing, or the call takes effect now. -/
theorem At.step {S w w' : Mgr} {op : Op} {p p' : Prog} {g : Ghost} {E P : List Data} {T : List Str} {K : List (Nat × Str × Nat)} (inv : S.Inv)
    (h : At w op p g) (hu : ∀ c d x e, op = .tAddDescendant c d → Linked w c x e → HasId w d x → e = d)
    (hr : Rel S w (g.early ++ E) (g.pend ++ P) (g.pt ++ T) (g.links ++ K)) (he : exec w p = .ok (w', p')) :
    ∃ g' S', At w' op p' g' ∧ Rel S' w' (g'.early ++ E) (g'.pend ++ P) (g'.pt ++ T) (g'.links ++ K) ∧
      ((g'.lin = g.lin ∧ S' = S) ∨ (g.lin = none ∧ ∃ e, g'.lin = some e ∧ op.seq S = .ok (e, S'))) := by
  have hid : ∀ {c t}, HasId w c t → HasId S c t := fun ⟨o, h1, h2⟩ => by
    obtain ⟨s, a1, a2, _⟩ := hr.objs.get h1
    exact ⟨s, a1, a2.trans h2⟩
  have hmg : ∀ {c}, Managed w c → Managed S c := fun ⟨o, h1, h2⟩ => by
    obtain ⟨s, a1, _, a3, _⟩ := hr.objs.get h1
    exact ⟨s, a1, a3.trans h2⟩
  have hhas : ∀ {r : Reg} {x}, r ≠ .tenants → (r.Has S x ↔ r.Has w x) := fun {r x} h => by
    unfold Reg.Has; rw [hr.reg r h x]
  cases h with
  | done => cases he
  | crash _ => cases he
  | row0 h1 h2 =>
    obtain ⟨rfl, rfl, h3⟩ := exec_readMgr he
    exact ⟨_, S, .row1 h1 h2 h3, hr, .inl ⟨rfl, rfl⟩⟩
  | row1 h1 h2 h3 =>
    obtain ⟨rfl, h4⟩ := exec_insert he
    obtain ⟨S', h5, h6⟩ := h1.seq inv (hid h2) (hmg h3)
    exact ⟨_, S', .done, hr.insert h6 (Inserted.of_addData h4) (fun d => by simp only [List.nil_append]; omega), .inr ⟨rfl, none, rfl, h5⟩⟩
  | reg0 h1 =>
    rename_i r x obj
    cases he
    cases hb : ((r.of w).get x).isSome with
    | false => exact ⟨_, S, .reg1 h1, hr, .inl ⟨rfl, rfl⟩⟩
    | true =>
      obtain ⟨h2, h3⟩ := RegOp.seq (w := S) (hr.heap ▸ h1)
      refine ⟨_, S, .done, hr, .inr ⟨rfl, none, rfl, ?_⟩⟩
      rw [h3]
      have h4 : ((r.of S).get x).isSome = true := (hr.reg r h2 x).trans hb
      obtain ⟨y, hy⟩ := Option.isSome_iff_exists.1 h4
      rw [Verif.register, hy]
      cases r <;> rfl
  | reg1 h1 =>
    rename_i r x obj
    cases he
    obtain ⟨h2, h3⟩ := RegOp.seq (w := S) (hr.heap ▸ h1)
    refine ⟨_, _, .done, ?_, .inr ⟨rfl, none, rfl, h3⟩⟩
    have hreg : ∀ r' : Reg, r' ≠ .tenants → ∀ z, ((r'.of (r.put S (Verif.register (r.of S) x obj).2)).get z).isSome =
        ((r'.of (r.put w ((r.of w).set x obj))).get z).isSome := by
      intro r' hr' z
      rw [of_put, of_put]
      split
      · rename_i e; subst e
        have := hr.reg r' hr' z
        rw [Mgr.register_get, GoMap.get_set]
        by_cases hz : x = z
        · subst hz; simp only [if_true]; cases (r'.of S).get x <;> rfl
        · rw [if_neg hz, ← this]
          cases (r'.of S).get z <;> simp [Ne.symm hz]
      · exact hr.reg r' hr' z
    have hten : ∀ z, ((r.put S (Verif.register (r.of S) x obj).2).tenants.get z).isSome ↔
        ((r.put w ((r.of w).set x obj)).tenants.get z).isSome ∨ z ∈ T := by
      intro z
      have := hr.ten z
      cases r <;> first | exact absurd rfl h2 | exact this
    refine ⟨?_, ?_, ?_, ?_, ?_, ?_, hreg, hten, ?_⟩
    · have := hr.objs; cases r <;> exact this
    · have := hr.heap; cases r <;> exact this
    · have := hr.attributes; cases r <;> exact this
    · have := hr.attrGroups; cases r <;> exact this
    · have := hr.hierarchy; cases r <;> exact this
    · have := hr.pcache; cases r <;> exact this
    · have := hr.rows; cases r <;> exact this
  | ten0 h1 =>
    rename_i a x
    obtain ⟨t, h2, h3⟩ := onTenant_ok he
    cases h3
    obtain ⟨t', h4, h5⟩ := h1
    rw [h2] at h4; cases h4
    obtain ⟨s, h6, h7, _⟩ := hr.objs.get h2
    refine ⟨_, _, .ten1, ?_, .inr ⟨rfl, none, rfl, by simp only [Op.seq, Mgr.addTenant, h6]; rfl⟩⟩
    refine ⟨?_, hr.heap, hr.attributes, hr.attrGroups, hr.hierarchy, hr.pcache, fun r hne z => ?_, fun z => ?_, hr.rows⟩
    · exact hr.objs.setMgr h6 h2
    · have := hr.reg r hne z
      cases r <;> first | exact absurd rfl hne | exact this
    · have := hr.ten z
      simp only [List.nil_append] at this
      show ((Verif.register S.tenants s.id a).2.get z).isSome ↔ (w.tenants.get z).isSome ∨ z ∈ [x] ++ T
      rw [Mgr.register_get, h7, h5, List.mem_append, List.mem_singleton]
      cases hz : S.tenants.get z with
      | some y =>
        rw [hz] at this
        simp only [Option.isSome_some, true_iff] at this
        simp only [Option.isSome_some, true_iff]
        rcases this with h | h
        · exact .inl h
        · exact .inr (.inr h)
      | none =>
        rw [hz] at this
        simp only [Option.isSome_none, Bool.false_eq_true, false_iff, not_or] at this
        by_cases e : z = x
        · simp [e]
        · simp [e, this]
  | ten1 =>
    rename_i a x
    cases he
    cases hb : (w.tenants.get x).isSome with
    | false => simp only [Reg.of, hb]; exact ⟨_, S, .ten2, hr, .inl ⟨rfl, rfl⟩⟩
    | true =>
      simp only [Reg.of, hb]
      refine ⟨_, S, .done, { hr with ten := fun z => ?_ }, .inl ⟨rfl, rfl⟩⟩
      rw [hr.ten z]
      simp only [List.mem_append, List.mem_singleton, List.nil_append]
      constructor
      · rintro (h | rfl | h)
        · exact .inl h
        · exact .inl hb
        · exact .inr h
      · rintro (h | h)
        · exact .inl h
        · exact .inr (.inr h)
  | ten2 =>
    rename_i a x
    cases he
    refine ⟨_, S, .done, ⟨hr.objs, hr.heap, hr.attributes, hr.attrGroups, hr.hierarchy, hr.pcache, fun r hne z => ?_, fun z => ?_, hr.rows⟩,
      .inl ⟨rfl, rfl⟩⟩
    · have := hr.reg r hne z
      cases r <;> first | exact absurd rfl hne | exact this
    · rw [hr.ten z]
      show _ ↔ ((w.tenants.set x a).get z).isSome ∨ _
      rw [GoMap.get_set]
      simp only [List.mem_append, List.mem_singleton, List.nil_append]
      by_cases e : x = z
      · simp [e]
      · simp [e, Ne.symm e]
  | def0 =>
    obtain ⟨rfl, rfl, h3⟩ := exec_readMgr he
    exact ⟨_, S, .def1 h3, hr, .inl ⟨rfl, rfl⟩⟩
  | def1 h1 =>
    rename_i c n
    cases he
    cases hb : (w.namespaces.get n).isSome with
    | true => simp only [Reg.of, hb]; exact ⟨_, S, .def2 h1 hb, hr, .inl ⟨rfl, rfl⟩⟩
    | false =>
      simp only [Reg.of, hb]
      refine ⟨_, S, .done, hr, .inr ⟨trivial, none, rfl, ?_⟩⟩
      obtain ⟨o, h2, h3⟩ := hmg h1
      have : (S.namespaces.get n).isSome = false := (hr.reg .namespaces (by decide) n).trans hb
      simp only [Op.seq, Mgr.tSetDefaultNamespace, Mgr.withTenant, h2, h3, this]; rfl
  | def2 h1 h2 =>
    rename_i c n
    obtain ⟨t, h3, h4⟩ := onTenant_ok he
    cases h4
    obtain ⟨o, h5, h6⟩ := h1
    rw [h3] at h5; cases h5
    obtain ⟨s, h7, _, h9, _⟩ := hr.objs.get h3
    have h10 : s.managed = true := h9.trans h6
    have h8 : (S.namespaces.get n).isSome = true := (hr.reg .namespaces (by decide) n).trans h2
    refine ⟨_, _, .done, ?_, .inr ⟨rfl, none, rfl, by simp only [Op.seq, Mgr.tSetDefaultNamespace, Mgr.withTenant, h7, h10, h8, if_true]; rfl⟩⟩
    refine ⟨?_, hr.heap, hr.attributes, hr.attrGroups, hr.hierarchy, hr.pcache, fun r hne z => ?_, hr.ten, hr.rows⟩
    · have := hr.objs.setDef h7 h3 n
      rw [h10] at this
      exact this
    · have := hr.reg r hne z
      cases r <;> exact this
  | g0 h1 h2 =>
    obtain ⟨rfl, rfl, h3⟩ := exec_readMgr he
    exact ⟨_, S, .g1 h1 h2 h3, hr, .inl ⟨rfl, rfl⟩⟩
  | g1 h1 h2 h3 =>
    rename_i t c p r x err row
    cases he
    cases hb : ((Reg.principals.of w).get p).isSome with
    | true => exact ⟨_, S, .g2 h1 h2 h3 hb, hr, .inl ⟨rfl, rfl⟩⟩
    | false =>
      exact ⟨_, S, .done, hr, .inr ⟨rfl, _, rfl, h1.noPrin (hmg h3) (by rw [hhas (by decide), Reg.Has, hb]; simp)⟩⟩
  | g2 h1 h2 h3 h4 =>
    obtain ⟨rfl, rfl, _⟩ := exec_readMgr he
    exact ⟨_, S, .g3 h1 h2 h3 h4, hr, .inl ⟨rfl, rfl⟩⟩
  | g3 h1 h2 h3 h4 =>
    rename_i t c p r x err row
    cases he
    cases hb : ((r.of w).get x).isSome with
    | true => exact ⟨_, S, .g4 h1 h2 h3 h4 hb, hr, .inl ⟨rfl, rfl⟩⟩
    | false =>
      exact ⟨_, S, .done, hr, .inr ⟨rfl, _, rfl, h1.noX (hmg h3) ((hhas (by decide)).2 h4)
        (by rw [hhas h1.ne, Reg.Has, hb]; simp)⟩⟩
  | g4 h1 h2 h3 h4 h5 =>
    obtain ⟨rfl, rfl, _⟩ := exec_readMgr he
    exact ⟨_, S, .g5 h1 h2 h3 h4 h5, hr, .inl ⟨rfl, rfl⟩⟩
  | g5 h1 h2 h3 h4 h5 =>
    obtain ⟨rfl, h6⟩ := exec_insert he
    have m := (mono_data h6).1
    refine ⟨_, S, .g6 h1 (h2.mono m) (h3.mono m) (h4.mono m) (h5.mono m),
      hr.insert (Inserted.nil S) (Inserted.of_addData h6) (fun d => by simp only [List.nil_append, List.count_append, List.count_nil]; omega),
      .inl ⟨rfl, rfl⟩⟩
  | g6 h1 h2 h3 h4 h5 =>
    rename_i t c p r x err row
    obtain ⟨o, h6, h7⟩ := onTenant_ok he
    cases h7
    cases hd : o.defNs with
    | some n => exact ⟨_, S, .g7 h1 h2 h3 h4 h5, hr, .inl ⟨rfl, rfl⟩⟩
    | none =>
      obtain ⟨o1, a1, a2⟩ := h2
      rw [h6] at a1; cases a1
      obtain ⟨o2, b1, b2⟩ := h3
      rw [h6] at b1; cases b1
      obtain ⟨s, d1, d2, d3, d4, _⟩ := hr.objs.get h6
      obtain ⟨S', c1, c2⟩ := h1.ok inv d1 (d2.trans a2) (d3.trans b2) ((hhas (by decide)).2 h4) ((hhas h1.ne).2 h5)
      rw [d4, hd] at c2
      exact ⟨_, S', .done, hr.insert c2 (Inserted.nil _)
        (fun d => by simp only [List.nil_append, List.count_append, List.count_nil, Option.toList_none, List.map_nil]; omega),
        .inr ⟨rfl, _, rfl, c1⟩⟩
  | g7 h1 h2 h3 h4 h5 =>
    obtain ⟨rfl, rfl, _⟩ := exec_readMgr he
    exact ⟨_, S, .g8 h1 h2 h3 h4 h5, hr, .inl ⟨rfl, rfl⟩⟩
  | g8 h1 h2 h3 h4 h5 =>
    rename_i t c p r x err row
    obtain ⟨o, h6, h7⟩ := onTenant_ok he
    cases h7
    obtain ⟨o1, a1, a2⟩ := h2
    rw [h6] at a1; cases a1
    obtain ⟨o2, b1, b2⟩ := h3
    rw [h6] at b1; cases b1
    cases hd : o.defNs with
    | none => exact ⟨_, S, .crash rfl, hr, .inl ⟨rfl, rfl⟩⟩
    | some n =>
      obtain ⟨s, d1, d2, d3, d4, _⟩ := hr.objs.get h6
      obtain ⟨S', c1, c2⟩ := h1.ok inv d1 (d2.trans a2) (d3.trans b2) ((hhas (by decide)).2 h4) ((hhas h1.ne).2 h5)
      rw [d4, hd] at c2
      exact ⟨_, S', .g9, hr.insert c2 (Inserted.nil _)
        (fun d => by simp only [List.nil_append, List.count_append, List.count_nil, List.count_cons, Option.toList_some, List.map_cons, List.map_nil]; omega),
        .inr ⟨rfl, _, rfl, c1⟩⟩
  | g9 =>
    obtain ⟨rfl, h6⟩ := exec_insert he
    exact ⟨_, S, .done, hr.insert (Inserted.nil S) (Inserted.of_addData h6)
      (fun d => by simp only [List.nil_append, List.count_append, List.count_nil]; omega), .inl ⟨rfl, rfl⟩⟩
  | l0 h1 h2 =>
    rename_i c d t did
    obtain ⟨o, h3, h4⟩ := onTenant_ok he
    cases h4
    cases hb : o.desc.get did with
    | none => exact ⟨_, S, .l1 h1 h2, hr, .inl ⟨rfl, rfl⟩⟩
    | some e =>
      have hl : Linked w c did e := ⟨o, h3, hb⟩
      obtain rfl := hu c d did e rfl hl h2
      exact ⟨_, S, .l2 h2 hl, { hr with objs := hr.objs.early h3 hb }, .inl ⟨rfl, rfl⟩⟩
  | l1 h1 h2 =>
    rename_i c d t did
    obtain ⟨o, h3, h4⟩ := onTenant_ok he
    cases h4
    have hu' : ∀ e, o.desc.get did = some e → e = d := fun e h => hu c d did e rfl ⟨o, h3, h⟩ h2
    have hlt : c < w.tobjs.length := (List.getElem?_eq_some_iff.1 h3).1
    have m : Mono w { w with tobjs := w.tobjs.set c { o with desc := o.desc.set did d } } :=
      mono_tobj h3 rfl (fun h => h) (fun h => h)
    refine ⟨_, S, .l2 (h2.mono m) ⟨_, List.getElem?_set_self hlt, by simp [GoMap.get_set]⟩,
      { hr with objs := hr.objs.setDesc h3 hu', reg := fun r hne z => ?_ }, .inl ⟨rfl, rfl⟩⟩
    have := hr.reg r hne z
    cases r <;> exact this
  | l2 h1 h2 =>
    rename_i c d did
    obtain ⟨o, h3, h4⟩ := onTenant_ok he
    cases h4
    cases hn : o.defNs with
    | some n => exact ⟨_, S, .l3 h1 h2 ⟨o, h3, hn⟩, hr, .inl ⟨rfl, rfl⟩⟩
    | none =>
      obtain ⟨o', h5, h6⟩ := h2
      rw [h3] at h5; cases h5
      obtain ⟨s, d1, d2, d3, d4, _⟩ := hr.objs.get h3
      obtain ⟨u, u1, u2⟩ := hid h1
      have hs := desc_none d1 u1 (d4.trans hn)
      rw [u2] at hs
      refine ⟨_, _, .done, ?_, .inr ⟨rfl, none, rfl, hs⟩⟩
      refine { hr with objs := hr.objs.link d1 h3 h6, reg := fun r hne z => ?_ }
      have := hr.reg r hne z
      cases r <;> exact this
  | l3 h1 h2 h3 =>
    rename_i c d did n
    obtain ⟨o, h4, h5⟩ := onTenant_ok he
    cases h5
    obtain ⟨o', h6, h7⟩ := h3
    rw [h4] at h6; cases h6
    rw [h7]
    exact ⟨_, S, .l4 h1 h2 ⟨o, h4, h7⟩, hr, .inl ⟨rfl, rfl⟩⟩
  | l4 h1 h2 h3 =>
    obtain ⟨rfl, rfl, h4⟩ := exec_readMgr he
    exact ⟨_, S, .l5 h1 h2 h3 h4, hr, .inl ⟨rfl, rfl⟩⟩
  | l5 h1 h2 h3 h4 =>
    rename_i c d did n
    obtain ⟨rfl, h6⟩ := exec_insert he
    have m := (mono_data h6).1
    have ht : w'.tobjs = w.tobjs := by
      obtain ⟨t, _, rfl⟩ := Out.map_eq_ok.1 h6; rfl
    refine ⟨_, S, .l6 (n := n) (h1.mono m) ?_ ?_ (h4.mono m),
      hr.insert (Inserted.nil S) (Inserted.of_addData h6) (fun d => by simp only [List.nil_append, List.count_append, List.count_nil]; omega),
      .inl ⟨rfl, rfl⟩⟩
    · unfold Linked at h2 ⊢; rw [ht]; exact h2
    · unfold DefIs at h3 ⊢; rw [ht]; exact h3
  | l6 h1 h2 h3 h4 =>
    rename_i c d did n
    obtain ⟨o, h5, h6⟩ := onTenant_ok he
    cases h6
    obtain ⟨o', h6, h7⟩ := h3
    rw [h5] at h6; cases h6
    rw [h7]
    exact ⟨_, S, .l7 h1 h2 ⟨o, h5, h7⟩ h4, hr, .inl ⟨rfl, rfl⟩⟩
  | l7 h1 h2 h3 h4 =>
    obtain ⟨rfl, rfl, _⟩ := exec_readMgr he
    exact ⟨_, S, .l8 h1 h2 h3 h4, hr, .inl ⟨rfl, rfl⟩⟩
  | l8 h1 h2 h3 h4 =>
    rename_i c d did n
    cases he
    cases hb : (w.namespaces.get n).isSome with
    | true => simp only [Reg.of, hb]; exact ⟨_, S, .l9 h1 h2 h3 h4 hb, hr, .inl ⟨rfl, rfl⟩⟩
    | false =>
      simp only [Reg.of, hb]
      obtain ⟨o, a1, a2⟩ := h2
      obtain ⟨o', b1, b2⟩ := h3
      rw [a1] at b1; cases b1
      obtain ⟨s, d1, d2, d3, d4, _⟩ := hr.objs.get a1
      obtain ⟨u, u1, u2⟩ := hid h1
      obtain ⟨v, v1, v2⟩ := h1
      obtain ⟨v', v3, v4⟩ := h4
      rw [v1] at v3; cases v3
      have ho := hr.objs.link d1 a1 a2
      obtain ⟨d1', x1, x2, x3, x4, _⟩ := ho.get v1
      have hS : (S.namespaces.get n).isSome = false := (hr.reg .namespaces (by decide) n).trans hb
      subst u2
      obtain ⟨tr, hs⟩ := desc_some inv d1 u1 (d4.trans b2) x1 (x2.trans v2) (x3.trans v4)
      rw [hS] at hs
      refine ⟨_, _, .done, ?_, .inr ⟨trivial, none, rfl, hs⟩⟩
      have := hr.change (tS := tr) (tw := w.trie) (l := [{ tenant := .str u.id, namespace_ := .str n }]) (m := []) (E' := E) (P' := P) ho
        (fun d => by simp only [List.nil_append, List.count_append, List.count_nil]; omega)
      rw [List.append_nil] at this
      exact this
  | l9 h1 h2 h3 h4 h5 =>
    rename_i c d did n
    obtain ⟨v, v1, hv⟩ := onTenant_ok he
    cases hv
    obtain ⟨o, a1, a2⟩ := h2
    obtain ⟨o', b1, b2⟩ := h3
    rw [a1] at b1; cases b1
    obtain ⟨s, d1, d2, d3, d4, _⟩ := hr.objs.get a1
    obtain ⟨u, u1, u2⟩ := hid h1
    obtain ⟨v', v5, v2⟩ := h1
    rw [v1] at v5; cases v5
    obtain ⟨v', v3, v4⟩ := h4
    rw [v1] at v3; cases v3
    have ho := hr.objs.link d1 a1 a2
    obtain ⟨d1', x1, x2, x3, x4, _⟩ := ho.get v1
    have hS : (S.namespaces.get n).isSome = true := (hr.reg .namespaces (by decide) n).trans h5
    subst u2
    obtain ⟨tr, hs⟩ := desc_some inv d1 u1 (d4.trans b2) x1 (x2.trans v2) (x3.trans v4)
    rw [if_pos hS] at hs
    refine ⟨_, _, .done, ?_, .inr ⟨rfl, none, rfl, hs⟩⟩
    have := hr.change (tS := tr) (tw := w.trie) (l := [{ tenant := .str u.id, namespace_ := .str n }]) (m := []) (E' := E) (P' := P)
      (ho.setDef x1 v1 n) (fun d => by simp only [List.nil_append, List.count_append, List.count_nil]; omega)
    rw [List.append_nil] at this
    exact this

/-- Steps that do not link leave the links. -/
theorem exec_desc {w w' : Mgr} {p p' : Prog} (h : exec w p = .ok (w', p')) (hp : ∀ c x d k, p ≠ .setDesc c x d k) (c : Nat) (x : Str) (e : Nat) :
    Linked w' c x e ↔ Linked w c x e := by
  have key : ∀ {a : Nat} {t t' : TenantObj}, w.tobjs[a]? = some t → t'.desc = t.desc →
      (Linked { w with tobjs := w.tobjs.set a t' } c x e ↔ Linked w c x e) := by
    intro a t t' h1 h2
    have hl := (List.getElem?_eq_some_iff.1 h1).1
    unfold Linked
    by_cases ea : a = c
    · subst ea
      simp only [List.getElem?_set_self hl, Option.some.injEq, exists_eq_left', h1, h2]
    · simp only [List.getElem?_set_ne ea]
  cases p with
  | ret e => cases h
  | crash => cases h
  | readMgr a k => obtain ⟨rfl, _⟩ := exec_readMgr h; rfl
  | writeMgr a k => obtain ⟨t, h1, h2⟩ := onTenant_ok h; cases h2; exact key h1 rfl
  | get r y k => cases h; rfl
  | set r y o k => cases h; cases r <;> rfl
  | readDef a k => obtain ⟨t, h1, h2⟩ := onTenant_ok h; cases h2; rfl
  | writeDef a n k => obtain ⟨t, h1, h2⟩ := onTenant_ok h; cases h2; exact key h1 rfl
  | insert d k =>
    obtain ⟨rfl, h6⟩ := exec_insert h
    obtain ⟨t, _, rfl⟩ := Out.map_eq_ok.1 h6; rfl
  | getDesc a y k => obtain ⟨t, h1, h2⟩ := onTenant_ok h; cases h2; rfl
  | setDesc a y d k => exact absurd rfl (hp a y d k)

/-- No step undoes a link, and a new link is one that the call is to make. -/
theorem At.links {w w' : Mgr} {op : Op} {p p' : Prog} {g : Ghost} (h : At w op p g)
    (hu : ∀ c d x e, op = .tAddDescendant c d → Linked w c x e → HasId w d x → e = d) (he : exec w p = .ok (w', p')) :
    (∀ c x e, Linked w c x e → Linked w' c x e) ∧
    ∀ c x e, Linked w' c x e → Linked w c x e ∨ (op = .tAddDescendant c e ∧ HasId w e x) := by
  have hother : (∀ c x d k, p ≠ .setDesc c x d k) → (∀ c x e, Linked w c x e → Linked w' c x e) ∧
      ∀ c x e, Linked w' c x e → Linked w c x e ∨ (op = .tAddDescendant c e ∧ HasId w e x) :=
    fun hp => ⟨fun c x e => (exec_desc he hp c x e).2, fun c x e hl => .inl ((exec_desc he hp c x e).1 hl)⟩
  cases h with
  | l1 h1 h2 =>
    rename_i c d t did
    obtain ⟨o, h3, h4⟩ := onTenant_ok he
    cases h4
    have hlt : c < w.tobjs.length := (List.getElem?_eq_some_iff.1 h3).1
    constructor
    · rintro a x e ⟨o', b1, b2⟩
      by_cases ea : c = a
      · subst ea
        rw [h3] at b1; cases b1
        refine ⟨_, List.getElem?_set_self hlt, ?_⟩
        simp only [GoMap.get_set]
        split
        · rename_i ex; subst ex
          rw [hu c d did e rfl ⟨o, h3, b2⟩ h2]
        · exact b2
      · exact ⟨o', by simp only [List.getElem?_set_ne ea]; exact b1, b2⟩
    · rintro a x e ⟨o', b1, b2⟩
      by_cases ea : c = a
      · subst ea
        simp only [List.getElem?_set_self hlt, Option.some.injEq] at b1
        subst b1
        simp only [GoMap.get_set] at b2
        split at b2
        · rename_i ex; subst ex
          cases b2
          exact .inr ⟨rfl, h2⟩
        · exact .inl ⟨o, h3, b2⟩
      · simp only [List.getElem?_set_ne ea] at b1
        exact .inl ⟨o', b1, b2⟩
  | _ => exact hother (fun _ _ _ _ hp => by cases hp)

/-- The call as a call of the sequential history model. -/
def Op.mop : Op → MOp
  | .addTenant a => .addTenant a
  | .addNamespace id obj => .addNamespace id obj
  | .addScope id obj => .addScope id obj
  | .addPrincipal id obj => .addPrincipal id obj
  | .addRole r => .addRole r
  | .tAddNamespace c n => .tAddNamespace c n
  | .tAddScopesToNamespace c n s => .tAddScopesToNamespace c n s
  | .tSetDefaultNamespace c n => .tSetDefaultNamespace c n
  | .tAddPrincipalInNamespace c p n r => .tAddPrincipalInNamespace c p n r
  | .tAddRole c r => .tAddRole c r
  | .tAddScope c s => .tAddScope c s
  | .tAddPrincipalWithRole c p r m => .tAddPrincipalWithRole c p r m
  | .tAddScopeToPrincipal c p s m => .tAddScopeToPrincipal c p s m
  | .tAddDescendant c d => .tAddDescendant c [d]

theorem seq_mop {w w' : Mgr} {op : Op} {e : Option Err} (h : op.seq w = .ok (e, w')) : op.mop.apply w = .ok w' := by
  have key : ∀ {x : Out Mgr}, (x.map fun v => ((none : Option Err), v)) = .ok (e, w') → x = .ok w' := by
    intro x h
    obtain ⟨v, h1, h2⟩ := Out.map_eq_ok.1 h
    cases h2; exact h1
  have key2 : ∀ {x : Out (Nat × Mgr)}, (x.map fun v => ((none : Option Err), v.2)) = .ok (e, w') → x.map (·.2) = .ok w' := by
    intro x h
    obtain ⟨v, h1, h2⟩ := Out.map_eq_ok.1 h
    cases h2; rw [h1]; rfl
  cases op with
  | addTenant a => exact key2 h
  | addRole r => exact key2 h
  | addNamespace x obj => cases h; rfl
  | addScope x obj => cases h; rfl
  | addPrincipal x obj => cases h; rfl
  | tAddPrincipalWithRole c p r m => exact Out.map_eq_ok.2 ⟨_, h, rfl⟩
  | tAddScopeToPrincipal c p s m => exact Out.map_eq_ok.2 ⟨_, h, rfl⟩
  | tAddNamespace c n => exact key h
  | tAddScopesToNamespace c n s => exact key h
  | tSetDefaultNamespace c n => exact key h
  | tAddPrincipalInNamespace c p n r => exact key h
  | tAddRole c r => exact key h
  | tAddScope c s => exact key h
  | tAddDescendant c d => exact key h

theorem flatMap_at {β : Type} (f : Ghost → List β) : ∀ (gs : List Ghost) (i : Nat) (g : Ghost), gs[i]? = some g →
    ∃ rest, (gs.flatMap f).Perm (f g ++ rest) ∧ ∀ g', ((gs.set i g').flatMap f).Perm (f g' ++ rest)
  | [], i, g, h => by simp at h
  | a :: gs, 0, g, h => by
    simp only [List.getElem?_cons_zero, Option.some.injEq] at h; subst h
    exact ⟨gs.flatMap f, by simp, fun g' => by simp⟩
  | a :: gs, i + 1, g, h => by
    obtain ⟨rest, h1, h2⟩ := flatMap_at f gs i g (by simpa using h)
    refine ⟨f a ++ rest, ?_, fun g' => ?_⟩
    · rw [List.flatMap_cons]
      exact (h1.append_left (f a)).trans (by rw [← List.append_assoc, ← List.append_assoc]; exact List.perm_append_comm.append_right rest)
    · rw [List.set_cons_succ, List.flatMap_cons]
      exact ((h2 g').append_left (f a)).trans (by rw [← List.append_assoc, ← List.append_assoc]; exact List.perm_append_comm.append_right rest)

theorem pair_snoc {α : Type} {a b x : α} {l : List α} (h : [a, b].Sublist (l ++ [x])) : [a, b].Sublist l ∨ (b = x ∧ a ∈ l) := by
  rcases List.sublist_append_iff.1 h with ⟨l1, l2, e, h1, h2⟩
  match l1, e with
  | [], e =>
    simp only [List.nil_append] at e; subst e
    have := h2.length_le; simp at this
  | [y], e =>
    simp only [List.cons_append, List.nil_append, List.cons.injEq] at e
    obtain ⟨rfl, rfl⟩ := e
    exact .inr ⟨by simpa using h2, by simpa using h1⟩
  | [y, z], e =>
    simp only [List.cons_append, List.nil_append, List.cons.injEq] at e
    obtain ⟨rfl, rfl, _⟩ := e
    exact .inl h1
  | y :: z :: u :: v, e => simp at e

theorem snoc_pair {α : Type} {a x : α} {l : List α} (h : a ∈ l) : [a, x].Sublist (l ++ [x]) := by
  have : [a].Sublist l := by simpa using h
  exact this.append (.refl [x])

theorem Mono.trans {u v w : Mgr} (h1 : Mono u v) (h2 : Mono v w) : Mono u w where
  ten := fun c t ht => by
    obtain ⟨t1, a1, a2, a3, a4⟩ := h1.ten c t ht
    obtain ⟨t2, b1, b2, b3, b4⟩ := h2.ten c t1 a1
    exact ⟨t2, b1, b2.trans a2, b3 ∘ a3, b4 ∘ a4⟩
  reg := fun r x h => h2.reg r x (h1.reg r x h)
  heap := h2.heap.trans h1.heap
  len := h2.len.trans h1.len

/-- The step changes no default namespace that is set while a descendant is being added to the tenant. -/
def Conf.CalmStep (c c' : Conf) : Prop :=
  ∀ n x d p, some (n, Op.tAddDescendant x d, p) ∈ c.th → ∀ m, DefIs c.w x m → DefIs c'.w x m

/-- No default namespace is changed while a descendant is being added to its tenant. -/
def CalmRun (c : Conf) : List Sched → Prop
  | [] => True
  | s :: ss => ∀ c', c.step s = .ok c' → c.CalmStep c' ∧ CalmRun c' ss

/-- What holds in every state: `L` are the calls that have taken effect, `S` is the state they lead to when made one at a
time, `gs` says where the goroutines stand; `Ch` are the descendants that tenants have or are to get. -/
structure Lin (Ch : Nat → Nat → Prop) (w0 : Mgr) (c : Conf) (gs : List Ghost) (L : List (Nat × Op × Option Err)) (S : Mgr) : Prop where
  seq : SeqRun w0 L S
  inv : S.Inv
  len : gs.length = c.th.length
  idle : ∀ (i : Nat) (g : Ghost), c.th[i]? = some none → gs[i]? = some g → g = {}
  busy : ∀ (i n : Nat) (op : Op) (p : Prog) (g : Ghost), c.th[i]? = some (some (n, op, p)) → gs[i]? = some g → At c.w op p g
  rel : Rel S c.w (gs.flatMap (·.early)) (gs.flatMap (·.pend)) (gs.flatMap (·.pt)) (gs.flatMap (·.links))
  small : ∀ n ∈ L.map (·.1), n < c.hist.length
  smallB : ∀ (i n : Nat) (op : Op) (p : Prog), c.th[i]? = some (some (n, op, p)) → n < c.hist.length
  uniq : ∀ (i j n : Nat) (op : Op) (p : Prog) (op' : Op) (p' : Prog), c.th[i]? = some (some (n, op, p)) → c.th[j]? = some (some (n, op', p')) → i = j
  done : ∀ n op e, Ev.ret n op e ∈ c.hist → (n, op, e) ∈ L
  from_ : ∀ n op e, (n, op, e) ∈ L → Ev.ret n op e ∈ c.hist ∨
    ∃ (i : Nat) (p : Prog) (g : Ghost), c.th[i]? = some (some (n, op, p)) ∧ gs[i]? = some g ∧ g.lin = some e
  linIn : ∀ (i n : Nat) (op : Op) (p : Prog) (g : Ghost) (e : Option Err), c.th[i]? = some (some (n, op, p)) → gs[i]? = some g → g.lin = some e → (n, op, e) ∈ L
  notIn : ∀ (i n : Nat) (op : Op) (p : Prog) (g : Ghost), c.th[i]? = some (some (n, op, p)) → gs[i]? = some g → g.lin = none → n ∉ L.map (·.1)
  nodup : (L.map (·.1)).Nodup
  called : ∀ n op, Ev.call n op ∈ c.hist → (∃ e, Ev.ret n op e ∈ c.hist) ∨ ∃ (i : Nat) (p : Prog), c.th[i]? = some (some (n, op, p))
  order : ∀ m n op op' e, [Ev.ret m op e, Ev.call n op'].Sublist c.hist → n ∈ L.map (·.1) → [m, n].Sublist (L.map (·.1))
  mono : Mono w0 c.w
  linkOk : ∀ x i d, Linked c.w x i d → Ch x d ∧ HasId c.w d i
  opOk : ∀ (i n x d : Nat) (p : Prog), c.th[i]? = some (some (n, .tAddDescendant x d, p)) → Ch x d

theorem Linked.id {w : Mgr} (inv : w.Inv) {c d : Nat} {x : Str} (h : Linked w c x d) : HasId w d x := by
  obtain ⟨o, h1, h2⟩ := h
  obtain ⟨o', h3, h4⟩ := inv.desc o (List.mem_of_getElem? h1) (x, d) (GoMap.get_some_mem h2)
  exact ⟨o', h3, h4⟩

theorem Lin.start {Ch : Nat → Nat → Prop} {w : Mgr} (inv : w.Inv) (hc : ∀ x i d, Linked w x i d → Ch x d) (k : Nat) :
    Lin Ch w (Conf.start w k) (List.replicate k {}) [] w := by
  have no : ∀ (i n : Nat) (op : Op) (p : Prog), (Conf.start w k).th[i]? ≠ some (some (n, op, p)) := by
    intro i n op p h
    simp [Conf.start, List.getElem?_replicate] at h
  have nil : ∀ {β : Type} (f : Ghost → List β), f {} = [] → (List.replicate k ({} : Ghost)).flatMap f = [] := by
    intro β f h
    rw [List.flatMap_eq_nil_iff]
    intro g hg
    rw [List.eq_of_mem_replicate hg, h]
  refine ⟨.nil, inv, by simp [Conf.start], ?_, ?_, ?_, by simp, ?_, ?_, by simp [Conf.start], by simp, ?_, by simp, by simp,
    by simp [Conf.start], by simp [Conf.start], .refl w, fun x i d h => ⟨hc x i d h, h.id inv⟩,
    fun i n x d p h => absurd h (no _ _ _ _)⟩
  · intro i g _ h
    exact List.eq_of_mem_replicate (List.mem_of_getElem? h)
  · intro i n op p g h; exact absurd h (no _ _ _ _)
  · rw [nil _ rfl, nil _ rfl, nil _ rfl, nil _ rfl]
    exact ⟨⟨rfl, fun c s t h1 h2 => by
      have e : s = t := Option.some.inj (h1.symm.trans h2)
      subst e; simp⟩, rfl, rfl, rfl, rfl, rfl, fun _ _ _ => rfl, fun x => by simp [Conf.start], fun d => rfl⟩
  · intro i n op p h; exact absurd h (no _ _ _ _)
  · intro i j n op p op' p' h; exact absurd h (no _ _ _ _)
  · intro i n op p g e h; exact absurd h (no _ _ _ _)

theorem Lin.step {Ch : Nat → Nat → Prop} {w0 : Mgr} (hu : ∀ x d d' t, Ch x d → Ch x d' → HasId w0 d t → HasId w0 d' t → d = d')
    {c c' : Conf} {gs : List Ghost} {L : List (Nat × Op × Option Err)} {S : Mgr} (h : Lin Ch w0 c gs L S)
    {s : Sched} (hs : ∀ i x d, s = .start i (.tAddDescendant x d) → Ch x d) (he : c.step s = .ok c') (hcalm : c.CalmStep c') :
    ∃ gs' L' S', Lin Ch w0 c' gs' L' S' := by
  cases s with
  | start i op =>
    simp only [Conf.step] at he
    split at he
    · rename_i hi
      cases he
      have hl : i < c.th.length := (List.getElem?_eq_some_iff.1 hi).1
      have hgl : i < gs.length := by rw [h.len]; exact hl
      have self : ∀ {t}, (c.th.set i t)[i]? = some t := fun {t} => List.getElem?_set_self hl
      have other : ∀ {j : Nat} {t}, i ≠ j → (c.th.set i t)[j]? = c.th[j]? := fun {_ _} e => List.getElem?_set_ne e
      refine ⟨gs, L, S, h.seq, h.inv, by simpa using h.len, ?_, ?_, h.rel, ?_, ?_, ?_, ?_, ?_, ?_, ?_, h.nodup, ?_, ?_, h.mono, h.linkOk, ?_⟩
      · intro j g h1 h2
        by_cases e : i = j
        · subst e; rw [self] at h1; cases h1
        · rw [other e] at h1; exact h.idle j g h1 h2
      · intro j n op' p g h1 h2
        by_cases e : i = j
        · subst e
          rw [self] at h1; cases h1
          rw [h.idle i g hi h2]
          exact At.first c.w op
        · rw [other e] at h1; exact h.busy j n op' p g h1 h2
      · intro n hn; have := h.small n hn; simp; omega
      · intro j n op' p h1
        by_cases e : i = j
        · subst e; rw [self] at h1; cases h1; simp
        · rw [other e] at h1; have := h.smallB j n op' p h1; simp; omega
      · intro j1 j2 n op1 p1 op2 p2 h1 h2
        by_cases e1 : i = j1
        · by_cases e2 : i = j2
          · exact e1.symm.trans e2
          · subst e1
            rw [self] at h1; cases h1
            rw [other e2] at h2
            exact absurd (h.smallB _ _ _ _ h2) (by omega)
        · by_cases e2 : i = j2
          · subst e2
            rw [self] at h2; cases h2
            rw [other e1] at h1
            exact absurd (h.smallB _ _ _ _ h1) (by omega)
          · rw [other e1] at h1; rw [other e2] at h2; exact h.uniq _ _ _ _ _ _ _ h1 h2
      · intro n op' e h1
        simp only [List.mem_append, List.mem_singleton, reduceCtorEq, or_false] at h1
        exact h.done n op' e h1
      · intro n op' e h1
        rcases h.from_ n op' e h1 with h2 | ⟨j, p, g, h2, h3, h4⟩
        · exact .inl (by simp [h2])
        · refine .inr ⟨j, p, g, ?_, h3, h4⟩
          rw [other]; · exact h2
          intro e; subst e; rw [hi] at h2; cases h2
      · intro j n op' p g e h1 h2 h3
        by_cases e : i = j
        · subst e
          rw [h.idle i g hi h2] at h3; cases h3
        · rw [other e] at h1; exact h.linIn j n op' p g _ h1 h2 h3
      · intro j n op' p g h1 h2 h3
        by_cases e : i = j
        · subst e
          rw [self] at h1; cases h1
          intro hn; exact absurd (h.small _ hn) (by omega)
        · rw [other e] at h1; exact h.notIn j n op' p g h1 h2 h3
      · intro n op' h1
        simp only [List.mem_append, List.mem_singleton, Ev.call.injEq] at h1
        rcases h1 with h1 | ⟨rfl, rfl⟩
        · rcases h.called n op' h1 with ⟨e, h2⟩ | ⟨j, p, h2⟩
          · exact .inl ⟨e, by simp [h2]⟩
          · refine .inr ⟨j, p, ?_⟩
            rw [other]; · exact h2
            intro e; subst e; rw [hi] at h2; cases h2
        · exact .inr ⟨i, _, self⟩
      · intro m n op1 op2 e h1 h2
        rcases pair_snoc h1 with h3 | ⟨h3, _⟩
        · exact h.order m n op1 op2 e h3 h2
        · cases h3; exact absurd (h.small _ h2) (by omega)
      · intro j n x d p h1
        by_cases e : i = j
        · subst e
          rw [self] at h1; cases h1
          exact hs i x d rfl
        · rw [other e] at h1; exact h.opOk j n x d p h1
    · cases he
  | go i =>
    simp only [Conf.step] at he
    split at he
    · rename_i n op e hi
      cases he
      have hl : i < c.th.length := (List.getElem?_eq_some_iff.1 hi).1
      have hgl : i < gs.length := by rw [h.len]; exact hl
      obtain ⟨g, hg⟩ : ∃ g, gs[i]? = some g := ⟨_, List.getElem?_eq_getElem hgl⟩
      have self : ∀ {t}, (c.th.set i t)[i]? = some t := fun {t} => List.getElem?_set_self hl
      have other : ∀ {j : Nat} {t}, i ≠ j → (c.th.set i t)[j]? = c.th[j]? := fun {_ _} e => List.getElem?_set_ne e
      have gself : ∀ {t}, (gs.set i t)[i]? = some t := fun {t} => List.getElem?_set_self hgl
      have gother : ∀ {j : Nat} {t}, i ≠ j → (gs.set i t)[j]? = gs[j]? := fun {_ _} e => List.getElem?_set_ne e
      have hat := h.busy i n op _ g hi hg
      have hge : g = { lin := some e } := by cases hat; rfl
      subst hge
      have hin := h.linIn i n op _ _ e hi hg rfl
      have hflat : ∀ {β : Type} (f : Ghost → List β), f { lin := some e } = f {} → ((gs.set i {}).flatMap f).Perm (gs.flatMap f) := by
        intro β f hf
        obtain ⟨rest, a1, a2⟩ := flatMap_at f gs i _ hg
        exact (a2 {}).trans (by rw [← hf]; exact a1.symm)
      refine ⟨gs.set i {}, L, S, h.seq, h.inv, by simpa using h.len, ?_, ?_, h.rel.congr (hflat _ rfl).symm (hflat _ rfl).symm (hflat _ rfl).symm (hflat _ rfl).symm,
        ?_, ?_, ?_, ?_, ?_, ?_, ?_, h.nodup, ?_, ?_, h.mono, h.linkOk, ?_⟩
      · intro j g h1 h2
        by_cases e : i = j
        · subst e; rw [gself] at h2; cases h2; rfl
        · rw [other e] at h1; rw [gother e] at h2; exact h.idle j g h1 h2
      · intro j n op' p g h1 h2
        by_cases e : i = j
        · subst e; rw [self] at h1; cases h1
        · rw [other e] at h1; rw [gother e] at h2; exact h.busy j n op' p g h1 h2
      · intro n hn; have := h.small n hn; simp; omega
      · intro j n op' p h1
        by_cases e : i = j
        · subst e; rw [self] at h1; cases h1
        · rw [other e] at h1; have := h.smallB j n op' p h1; simp; omega
      · intro j1 j2 n op1 p1 op2 p2 h1 h2
        by_cases e1 : i = j1
        · subst e1; rw [self] at h1; cases h1
        · by_cases e2 : i = j2
          · subst e2; rw [self] at h2; cases h2
          · rw [other e1] at h1; rw [other e2] at h2; exact h.uniq _ _ _ _ _ _ _ h1 h2
      · intro n' op' e' h1
        simp only [List.mem_append, List.mem_singleton, Ev.ret.injEq] at h1
        rcases h1 with h1 | ⟨rfl, rfl, rfl⟩
        · exact h.done _ _ _ h1
        · exact hin
      · intro n' op' e' h1
        rcases h.from_ n' op' e' h1 with h2 | ⟨j, p, g, h2, h3, h4⟩
        · exact .inl (by simp [h2])
        · by_cases ej : i = j
          · subst ej
            rw [hi] at h2; cases h2
            rw [hg] at h3; cases h3
            cases h4
            exact .inl (by simp)
          · exact .inr ⟨j, p, g, by rw [other ej]; exact h2, by rw [gother ej]; exact h3, h4⟩
      · intro j n op' p g e h1 h2 h3
        by_cases e : i = j
        · subst e; rw [self] at h1; cases h1
        · rw [other e] at h1; rw [gother e] at h2; exact h.linIn j n op' p g _ h1 h2 h3
      · intro j n op' p g h1 h2 h3
        by_cases e : i = j
        · subst e; rw [self] at h1; cases h1
        · rw [other e] at h1; rw [gother e] at h2; exact h.notIn j n op' p g h1 h2 h3
      · intro n' op' h1
        simp only [List.mem_append, List.mem_singleton, reduceCtorEq, or_false] at h1
        rcases h.called n' op' h1 with ⟨e, h2⟩ | ⟨j, p, h2⟩
        · exact .inl ⟨e, by simp [h2]⟩
        · by_cases ej : i = j
          · subst ej
            rw [hi] at h2; cases h2
            exact .inl ⟨e, by simp⟩
          · exact .inr ⟨j, p, by rw [other ej]; exact h2⟩
      · intro m n op1 op2 e h1 h2
        rcases pair_snoc h1 with h3 | ⟨h3, _⟩
        · exact h.order m n op1 op2 e h3 h2
        · cases h3
      · intro j n x d p h1
        by_cases e : i = j
        · subst e; rw [self] at h1; cases h1
        · rw [other e] at h1; exact h.opOk j n x d p h1
    · rename_i n op p hp hi
      obtain ⟨⟨w', p'⟩, hx, rfl⟩ := Out.map_eq_ok.1 he
      have hl : i < c.th.length := (List.getElem?_eq_some_iff.1 hi).1
      have hgl : i < gs.length := by rw [h.len]; exact hl
      obtain ⟨g, hg⟩ : ∃ g, gs[i]? = some g := ⟨_, List.getElem?_eq_getElem hgl⟩
      have self : ∀ {t}, (c.th.set i t)[i]? = some t := fun {t} => List.getElem?_set_self hl
      have other : ∀ {j : Nat} {t}, i ≠ j → (c.th.set i t)[j]? = c.th[j]? := fun {_ _} e => List.getElem?_set_ne e
      have gself : ∀ {t}, (gs.set i t)[i]? = some t := fun {t} => List.getElem?_set_self hgl
      have gother : ∀ {j : Nat} {t}, i ≠ j → (gs.set i t)[j]? = gs[j]? := fun {_ _} e => List.getElem?_set_ne e
      have hat := h.busy i n op p g hi hg
      obtain ⟨E, e1, e2⟩ := flatMap_at (·.early) gs i g hg
      obtain ⟨P, p1, p2⟩ := flatMap_at (·.pend) gs i g hg
      obtain ⟨T, t1, t2⟩ := flatMap_at (·.pt) gs i g hg
      obtain ⟨K, k1, k2⟩ := flatMap_at (·.links) gs i g hg
      have mono := exec_mono hx
      have hu' : ∀ x d y e, op = .tAddDescendant x d → Linked c.w x y e → HasId c.w d y → e = d := by
        rintro x d y e rfl h1 h2
        obtain ⟨h3, h4⟩ := h.linkOk x y e h1
        exact hu x e d y h3 (h.opOk i n x d p hi) (h4.back h.mono) (h2.back h.mono)
      obtain ⟨g', S', hat', hrel', hlin⟩ := hat.step h.inv hu' (h.rel.congr e1 p1 t1 k1) hx
      obtain ⟨lk1, lk2⟩ := hat.links hu' hx
      have mono' := h.mono.trans mono
      have linkOk' : ∀ x y d, Linked w' x y d → Ch x d ∧ HasId w' d y := by
        intro x y d h1
        rcases lk2 x y d h1 with h2 | ⟨rfl, h2⟩
        · obtain ⟨h3, h4⟩ := h.linkOk x y d h2
          exact ⟨h3, h4.mono mono⟩
        · exact ⟨h.opOk i n x d p hi, h2.mono mono⟩
      have opOk' : ∀ (j n0 x d : Nat) (q : Prog), (c.th.set i (some (n, op, p')))[j]? = some (some (n0, .tAddDescendant x d, q)) → Ch x d := by
        intro j n0 x d q h1
        by_cases e : i = j
        · subst e
          rw [self] at h1; cases h1
          exact h.opOk i n x d p hi
        · rw [other e] at h1; exact h.opOk j n0 x d q h1
      have hrel'' := hrel'.congr (e2 g').symm (p2 g').symm (t2 g').symm (k2 g').symm
      have idle' : ∀ (j : Nat) (g0 : Ghost), (c.th.set i (some (n, op, p')))[j]? = some none → (gs.set i g')[j]? = some g0 → g0 = {} := by
        intro j g0 h1 h2
        by_cases e : i = j
        · subst e; rw [self] at h1; cases h1
        · rw [other e] at h1; rw [gother e] at h2; exact h.idle j g0 h1 h2
      have busy' : ∀ (j n0 : Nat) (op0 : Op) (p0 : Prog) (g0 : Ghost), (c.th.set i (some (n, op, p')))[j]? = some (some (n0, op0, p0)) → (gs.set i g')[j]? = some g0 →
          At w' op0 p0 g0 := by
        intro j n0 op0 p0 g0 h1 h2
        by_cases e : i = j
        · subst e
          rw [self] at h1; cases h1
          rw [gself] at h2; cases h2
          exact hat'
        · rw [other e] at h1; rw [gother e] at h2; 
          refine (h.busy j n0 op0 p0 g0 h1 h2).mono mono lk1 ?_
          rintro x d m rfl hd
          exact hcalm n0 x d p0 (List.mem_of_getElem? h1) m hd
      have smallB' : ∀ (j n0 : Nat) (op0 : Op) (p0 : Prog), (c.th.set i (some (n, op, p')))[j]? = some (some (n0, op0, p0)) → n0 < c.hist.length := by
        intro j n0 op0 p0 h1
        by_cases e : i = j
        · subst e; rw [self] at h1; cases h1; exact h.smallB i _ _ _ hi
        · rw [other e] at h1; exact h.smallB j n0 op0 p0 h1
      have uniq' : ∀ (j1 j2 n0 : Nat) (op1 : Op) (q1 : Prog) (op2 : Op) (q2 : Prog), (c.th.set i (some (n, op, p')))[j1]? = some (some (n0, op1, q1)) →
          (c.th.set i (some (n, op, p')))[j2]? = some (some (n0, op2, q2)) → j1 = j2 := by
        intro j1 j2 n0 op1 q1 op2 q2 h1 h2
        by_cases e1 : i = j1
        · by_cases e2 : i = j2
          · exact e1.symm.trans e2
          · subst e1
            rw [self] at h1; cases h1
            rw [other e2] at h2
            exact h.uniq _ _ _ _ _ _ _ hi h2
        · by_cases e2 : i = j2
          · subst e2
            rw [self] at h2; cases h2
            rw [other e1] at h1
            exact h.uniq _ _ _ _ _ _ _ h1 hi
          · rw [other e1] at h1; rw [other e2] at h2; exact h.uniq _ _ _ _ _ _ _ h1 h2
      have called' : ∀ n0 op0, Ev.call n0 op0 ∈ c.hist → (∃ e, Ev.ret n0 op0 e ∈ c.hist) ∨
          ∃ (j : Nat) (q : Prog), (c.th.set i (some (n, op, p')))[j]? = some (some (n0, op0, q)) := by
        intro n0 op0 h1
        rcases h.called n0 op0 h1 with h2 | ⟨j, q, h2⟩
        · exact .inl h2
        · by_cases e : i = j
          · subst e
            rw [hi] at h2; cases h2
            exact .inr ⟨i, p', self⟩
          · exact .inr ⟨j, q, by rw [other e]; exact h2⟩
      rcases hlin with ⟨hl1, rfl⟩ | ⟨hl1, e, hl2, hseq⟩
      · refine ⟨gs.set i g', L, S', h.seq, h.inv, by simpa using h.len, idle', busy', hrel'', h.small, smallB', uniq', h.done, ?_, ?_, ?_, h.nodup,
          called', h.order, mono', linkOk', opOk'⟩
        · intro n0 op0 e0 h1
          rcases h.from_ n0 op0 e0 h1 with h2 | ⟨j, q, g0, h2, h3, h4⟩
          · exact .inl h2
          · by_cases e : i = j
            · subst e
              rw [hi] at h2; cases h2
              rw [hg] at h3; cases h3
              exact .inr ⟨i, p', g', self, gself, hl1.trans h4⟩
            · exact .inr ⟨j, q, g0, by rw [other e]; exact h2, by rw [gother e]; exact h3, h4⟩
        · intro j n0 op0 q g0 e0 h1 h2 h3
          by_cases e : i = j
          · subst e
            rw [self] at h1; cases h1
            rw [gself] at h2; cases h2
            exact h.linIn i n op p g e0 hi hg (hl1.symm.trans h3)
          · rw [other e] at h1; rw [gother e] at h2; exact h.linIn j n0 op0 q g0 e0 h1 h2 h3
        · intro j n0 op0 q g0 h1 h2 h3
          by_cases e : i = j
          · subst e
            rw [self] at h1; cases h1
            rw [gself] at h2; cases h2
            exact h.notIn i n op p g hi hg (hl1.symm.trans h3)
          · rw [other e] at h1; rw [gother e] at h2; exact h.notIn j n0 op0 q g0 h1 h2 h3
      · have hnot := h.notIn i n op p g hi hg hl1
        have hnew : (n, op, e) ∈ L ++ [(n, op, e)] := by simp
        refine ⟨gs.set i g', L ++ [(n, op, e)], S', .snoc h.seq hseq, MOp.apply_inv h.inv (seq_mop hseq), by simpa using h.len, idle', busy', hrel'', ?_,
          smallB', uniq', fun n0 op0 e0 h1 => by simp [h.done n0 op0 e0 h1], ?_, ?_, ?_, ?_, called', ?_, mono', linkOk', opOk'⟩
        · intro n0 h1
          simp only [List.map_append, List.mem_append, List.map_cons, List.map_nil, List.mem_singleton] at h1
          rcases h1 with h1 | rfl
          · exact h.small n0 h1
          · exact h.smallB i _ _ _ hi
        · intro n0 op0 e0 h1
          simp only [List.mem_append, List.mem_singleton, Prod.mk.injEq] at h1
          rcases h1 with h1 | ⟨rfl, rfl, rfl⟩
          · rcases h.from_ n0 op0 e0 h1 with h2 | ⟨j, q, g0, h2, h3, h4⟩
            · exact .inl h2
            · by_cases e : i = j
              · subst e
                rw [hi] at h2; cases h2
                rw [hg] at h3; cases h3
                rw [hl1] at h4; cases h4
              · exact .inr ⟨j, q, g0, by rw [other e]; exact h2, by rw [gother e]; exact h3, h4⟩
          · exact .inr ⟨i, p', g', self, gself, hl2⟩
        · intro j n0 op0 q g0 e0 h1 h2 h3
          by_cases ej : i = j
          · subst ej
            rw [self] at h1; cases h1
            rw [gself] at h2; cases h2
            rw [hl2] at h3; cases h3
            exact hnew
          · rw [other ej] at h1; rw [gother ej] at h2
            exact List.mem_append_left _ (h.linIn j n0 op0 q g0 e0 h1 h2 h3)
        · intro j n0 op0 q g0 h1 h2 h3
          by_cases ej : i = j
          · subst ej
            rw [self] at h1; cases h1
            rw [gself] at h2; cases h2
            rw [hl2] at h3; cases h3
          · rw [other ej] at h1; rw [gother ej] at h2
            have := h.notIn j n0 op0 q g0 h1 h2 h3
            simp only [List.map_append, List.mem_append, List.map_cons, List.map_nil, List.mem_singleton, not_or]
            refine ⟨this, ?_⟩
            rintro rfl
            exact ej (h.uniq _ _ _ _ _ _ _ hi h1)
        · rw [List.map_append, List.nodup_append]
          refine ⟨h.nodup, by simp, ?_⟩
          intro a ha b hb
          simp only [List.map_cons, List.map_nil, List.mem_singleton] at hb
          rintro rfl; subst hb
          exact hnot ha
        · intro m n0 op1 op2 e0 h1 h2
          simp only [List.map_append, List.mem_append, List.map_cons, List.map_nil, List.mem_singleton] at h2 ⊢
          rcases h2 with h2 | rfl
          · exact (h.order m n0 op1 op2 e0 h1 h2).trans (List.sublist_append_left _ _)
          · have hm : Ev.ret m op1 e0 ∈ c.hist := h1.subset (by simp)
            exact snoc_pair (List.mem_map_of_mem (f := (·.1)) (h.done m op1 e0 hm))
    · cases he

theorem Lin.run {Ch : Nat → Nat → Prop} {w0 : Mgr} (hu : ∀ x d d' t, Ch x d → Ch x d' → HasId w0 d t → HasId w0 d' t → d = d') (ss : List Sched)
    (hs : ∀ i x d, .start i (.tAddDescendant x d) ∈ ss → Ch x d) :
    ∀ {c c' : Conf} {gs : List Ghost} {L : List (Nat × Op × Option Err)} {S : Mgr}, Lin Ch w0 c gs L S → c.run ss = .ok c' → CalmRun c ss →
      ∃ gs' L' S', Lin Ch w0 c' gs' L' S' := by
  induction ss with
  | nil => intro c c' gs L S h e _; cases e; exact ⟨gs, L, S, h⟩
  | cons s ss ih =>
    intro c c' gs L S h e hc
    obtain ⟨c1, e1, e2⟩ := Out.bind_eq_ok.1 e
    obtain ⟨hc1, hc2⟩ := hc c1 e1
    obtain ⟨gs1, L1, S1, h1⟩ := h.step hu (fun i x d hx => hs i x d (by simp [hx])) e1 hc1
    exact ih (fun i x d h' => hs i x d (by simp [h'])) h1 e2 hc2

/-- The tenant at `d` is a descendant of the tenant at `c` to begin with, or is made one. -/
def Child (w : Mgr) (ss : List Sched) (c d : Nat) : Prop := (∃ x, Linked w c x d) ∨ ∃ i, .start i (.tAddDescendant c d) ∈ ss

/-- C112 (partial): it holds when no default namespace is changed while a descendant is being added to its tenant, and
no tenant has or gets two different descendants with the same identifier. -/
theorem C112_one_at_a_time_partial {w : Mgr} {k : Nat} {ss : List Sched} {c : Conf} (inv : w.Inv) (hr : (Conf.start w k).run ss = .ok c)
    (hc : CalmRun (Conf.start w k) ss) (hu : ∀ x d d' t, Child w ss x d → Child w ss x d' → HasId w d t → HasId w d' t → d = d')
    (hq : c.Quiet) : ∃ L, OneAtATime w c L := by
  obtain ⟨gs, L, S, h⟩ := Lin.run hu ss (fun i x d h => .inr ⟨i, h⟩) (Lin.start inv (fun x i d h => .inl ⟨i, h⟩) k) hr hc
  have no : ∀ (i n : Nat) (op : Op) (p : Prog), c.th[i]? ≠ some (some (n, op, p)) := by
    intro i n op p h
    exact absurd (hq _ (List.mem_of_getElem? h)) (by simp)
  have nil : ∀ {β : Type} (f : Ghost → List β), f {} = [] → gs.flatMap f = [] := by
    intro β f hf
    rw [List.flatMap_eq_nil_iff]
    intro g hg
    obtain ⟨i, hi, hgi⟩ := List.getElem_of_mem hg
    have hl : i < c.th.length := h.len ▸ hi
    have h1 : c.th[i]? = some c.th[i] := List.getElem?_eq_getElem hl
    have h2 := hq _ (List.getElem_mem hl)
    rw [h2] at h1
    rw [h.idle i g h1 (by rw [List.getElem?_eq_getElem hi, hgi]), hf]
  have hrel := h.rel
  rw [nil _ rfl, nil _ rfl, nil _ rfl, nil _ rfl] at hrel
  refine ⟨L, fun n op e => ⟨fun h1 => ?_, h.done n op e⟩, h.nodup, ?_, S, h.seq, hrel.objs.len, fun a s t h1 h2 => ?_, hrel.heap, hrel.attributes, hrel.attrGroups,
    hrel.hierarchy, hrel.pcache, fun r x => ?_, List.perm_iff_count.2 fun d => by simpa using hrel.rows d⟩
  · rcases h.from_ n op e h1 with h2 | ⟨i, p, g, h2, _⟩
    · exact h2
    · exact absurd h2 (no _ _ _ _)
  · intro m n op op' e h1
    refine h.order m n op op' e h1 ?_
    rcases h.called n op' (h1.subset (by simp)) with ⟨e', h2⟩ | ⟨i, p, h2⟩
    · exact List.mem_map_of_mem (f := (·.1)) (h.done n op' e' h2)
    · exact absurd h2 (no _ _ _ _)
  · obtain ⟨a1, a2, a3, a4⟩ := hrel.objs.obj a s t h1 h2
    refine ⟨a1, a2, a3, fun x => ?_⟩
    have key : ∀ d, t.desc.get x = some d ↔ s.desc.get x = some d := fun d => by simpa using a4 x d
    exact (Option.ext fun d => key d).symm
  · by_cases e : r = .tenants
    · subst e
      have := hrel.ten x
      simp only [List.not_mem_nil, or_false] at this
      exact Bool.eq_iff_iff.2 this
    · exact hrel.reg r e x

/-- C112 (partial): it holds when nobody calls `AddDescendant`. -/
theorem C112_no_descendants {w : Mgr} {k : Nat} {ss : List Sched} {c : Conf} (inv : w.Inv) (hr : (Conf.start w k).run ss = .ok c)
    (hs : ∀ s ∈ ss, ∀ i x d, s ≠ .start i (.tAddDescendant x d)) (hq : c.Quiet) : ∃ L, OneAtATime w c L := by
  refine C112_one_at_a_time_partial inv hr ?_ ?_ hq
  · have key : ∀ (ss : List Sched) (c : Conf), (∀ s ∈ ss, ∀ i x d, s ≠ .start i (.tAddDescendant x d)) →
        (∀ n x d p, some (n, Op.tAddDescendant x d, p) ∉ c.th) → CalmRun c ss := by
      intro ss
      induction ss with
      | nil => intro c _ _; trivial
      | cons s ss ih =>
        intro c hs hn c' hc'
        refine ⟨fun n x d p hm => absurd hm (hn n x d p), ih c' (fun s' h' => hs s' (by simp [h'])) ?_⟩
        intro n x d p hm
        cases s with
        | start i op =>
          simp only [Conf.step] at hc'
          split at hc'
          · cases hc'
            rcases List.mem_or_eq_of_mem_set hm with h1 | h1
            · exact hn _ _ _ _ h1
            · cases h1; exact hs _ (by simp) i x d rfl
          · cases hc'
        | go i =>
          simp only [Conf.step] at hc'
          split at hc'
          · cases hc'
            rcases List.mem_or_eq_of_mem_set hm with h1 | h1
            · exact hn _ _ _ _ h1
            · cases h1
          · rename_i hi
            obtain ⟨⟨w', p'⟩, hx, rfl⟩ := Out.map_eq_ok.1 hc'
            rcases List.mem_or_eq_of_mem_set hm with h1 | h1
            · exact hn _ _ _ _ h1
            · cases h1; exact hn _ _ _ _ (List.mem_of_getElem? hi)
          · cases hc'
    refine key ss _ hs ?_
    intro n x d p hm
    simp [Conf.start] at hm
  · rintro x d d' t (⟨i, h1⟩ | ⟨i, h1⟩) h2 h3 h4
    · rcases h2 with ⟨j, h2⟩ | ⟨j, h2⟩
      · obtain ⟨o, a1, a2⟩ := h1
        obtain ⟨o', b1, b2⟩ := h2
        rw [a1] at b1; cases b1
        obtain ⟨e1, f1, rfl⟩ := Linked.id inv ⟨o, a1, a2⟩
        obtain ⟨e2, f2, rfl⟩ := Linked.id inv ⟨o, a1, b2⟩
        obtain ⟨e3, f3, rfl⟩ := h3
        rw [f1] at f3; cases f3
        obtain ⟨e4, f4, f5⟩ := h4
        rw [f2] at f4; cases f4
        rw [f5, a2] at b2
        exact Option.some.inj b2
      · exact absurd rfl (hs _ h2 j x d')
    · exact absurd rfl (hs _ h1 i x d)

/-- The rest of the call may write the default namespace of the tenant at `x`. -/
def Writes (x : Nat) : Prog → Prop
  | .ret _ => False
  | .crash => False
  | .readMgr _ k => Writes x k
  | .writeMgr _ k => Writes x k
  | .get _ _ k => ∃ b, Writes x (k b)
  | .set _ _ _ k => Writes x k
  | .readDef _ k => ∃ o, Writes x (k o)
  | .writeDef c _ k => c = x ∨ Writes x k
  | .insert _ k => Writes x k
  | .getDesc _ _ k => ∃ b, Writes x (k b)
  | .setDesc _ _ _ k => Writes x k

theorem Writes.step {x : Nat} {w w' : Mgr} {p p' : Prog} (he : exec w p = .ok (w', p')) (h : Writes x p') : Writes x p := by
  cases p with
  | ret e => cases he
  | crash => cases he
  | readMgr a k => obtain ⟨rfl, rfl, _⟩ := exec_readMgr he; exact h
  | writeMgr a k => obtain ⟨t, h1, h2⟩ := onTenant_ok he; cases h2; exact h
  | get r y k => cases he; exact ⟨_, h⟩
  | set r y o k => cases he; exact h
  | readDef a k => obtain ⟨t, h1, h2⟩ := onTenant_ok he; cases h2; exact ⟨_, h⟩
  | writeDef a n k => obtain ⟨t, h1, h2⟩ := onTenant_ok he; cases h2; exact .inr h
  | insert d k => obtain ⟨rfl, h6⟩ := exec_insert he; exact h
  | getDesc a y k => obtain ⟨t, h1, h2⟩ := onTenant_ok he; cases h2; exact ⟨_, h⟩
  | setDesc a y d k => obtain ⟨t, h1, h2⟩ := onTenant_ok he; cases h2; exact h

/-- Only `SetDefaultNamespace` on the tenant and `AddDescendant` with it as the descendant write its default namespace. -/
theorem Writes.op {x : Nat} {w : Mgr} {op : Op} (h : Writes x (op.prog w)) :
    (∃ n, op = .tSetDefaultNamespace x n) ∨ ∃ c, op = .tAddDescendant c x := by
  have hreg : ∀ r id obj, ¬ Writes x (register r id obj) := by
    rintro r id obj ⟨b, h⟩
    cases b <;> exact h
  have hgrant : ∀ c p r y err row, ¬ Writes x (grant c p r y err row) := by
    rintro c p r y err row ⟨b, h⟩
    cases b with
    | false => exact h
    | true =>
      obtain ⟨b, h⟩ := h
      cases b with
      | false => exact h
      | true =>
        obtain ⟨o, h⟩ := h
        cases o with
        | none => exact h
        | some n =>
          obtain ⟨o, h⟩ := h
          cases o <;> exact h
  have hset : ∀ c n, Writes x (setDefault c n (.ret none)) → c = x := by
    rintro c n ⟨b, h⟩
    cases b with
    | false => exact h.elim
    | true => exact h.elim id False.elim
  have key : ∀ {c : Nat} {f : Str → Prog}, Writes x (Op.prog.tenant w c f) → ∃ t, Writes x (f t) := by
    intro c f h
    unfold Op.prog.tenant at h
    split at h
    · exact h.elim
    · exact ⟨_, h⟩
  cases op with
  | addTenant a =>
    simp only [Op.prog] at h
    split at h
    · exact h.elim
    · exact absurd h (hreg _ _ _)
  | addNamespace id obj => exact absurd h (hreg _ _ _)
  | addScope id obj => exact absurd h (hreg _ _ _)
  | addPrincipal id obj => exact absurd h (hreg _ _ _)
  | addRole r =>
    simp only [Op.prog] at h
    split at h
    · exact h.elim
    · exact absurd h (hreg _ _ _)
  | tAddNamespace c n => rw [Op.prog] at h; obtain ⟨t, h⟩ := key h; exact h.elim
  | tAddScopesToNamespace c n s => rw [Op.prog] at h; obtain ⟨t, h⟩ := key h; exact h.elim
  | tSetDefaultNamespace c n =>
    rw [Op.prog] at h
    obtain ⟨t, h⟩ := key h
    exact .inl ⟨n, by rw [hset c n h]⟩
  | tAddPrincipalInNamespace c p n r => rw [Op.prog] at h; obtain ⟨t, h⟩ := key h; exact h.elim
  | tAddRole c r => rw [Op.prog] at h; obtain ⟨t, h⟩ := key h; exact h.elim
  | tAddScope c s => rw [Op.prog] at h; obtain ⟨t, h⟩ := key h; exact h.elim
  | tAddPrincipalWithRole c p r m => rw [Op.prog] at h; obtain ⟨t, h⟩ := key h; exact absurd h (hgrant _ _ _ _ _ _)
  | tAddScopeToPrincipal c p s m => rw [Op.prog] at h; obtain ⟨t, h⟩ := key h; exact absurd h (hgrant _ _ _ _ _ _)
  | tAddDescendant c d =>
    rw [Op.prog] at h
    obtain ⟨_, h⟩ := key h
    obtain ⟨t, h⟩ := key h
    have hA : Writes x (lA c d t) → d = x := by
      rintro ⟨o, h⟩
      cases o with
      | none => exact h.elim
      | some _ =>
        obtain ⟨o, h⟩ := h
        cases o with
        | none => exact h.elim
        | some n =>
          obtain ⟨o, h⟩ := h
          cases o with
          | none => exact h.elim
          | some n => exact hset d n h
    refine .inr ⟨c, ?_⟩
    obtain ⟨b, h⟩ := h
    cases b <;> rw [hA h]

/-- A step that does not write the default namespace of a tenant leaves it. -/
theorem exec_def {x : Nat} {w w' : Mgr} {p p' : Prog} (he : exec w p = .ok (w', p')) (hx : ¬ Writes x p) {m : Str} (h : DefIs w x m) :
    DefIs w' x m := by
  have key : ∀ {a : Nat} {t t' : TenantObj}, w.tobjs[a]? = some t → (a = x → t'.defNs = t.defNs) →
      DefIs { w with tobjs := w.tobjs.set a t' } x m := by
    intro a t t' h1 h2
    obtain ⟨o, h3, h4⟩ := h
    have hl := (List.getElem?_eq_some_iff.1 h1).1
    by_cases ea : a = x
    · subst ea
      rw [h1] at h3; cases h3
      exact ⟨t', List.getElem?_set_self hl, (h2 rfl).trans h4⟩
    · exact ⟨o, by simp only [List.getElem?_set_ne ea]; exact h3, h4⟩
  cases p with
  | ret e => cases he
  | crash => cases he
  | readMgr a k => obtain ⟨rfl, _⟩ := exec_readMgr he; exact h
  | writeMgr a k => obtain ⟨t, h1, h2⟩ := onTenant_ok he; cases h2; exact key h1 fun _ => rfl
  | get r y k => cases he; exact h
  | set r y o k => cases he; cases r <;> exact h
  | readDef a k => obtain ⟨t, h1, h2⟩ := onTenant_ok he; cases h2; exact h
  | writeDef a n k => obtain ⟨t, h1, h2⟩ := onTenant_ok he; cases h2; exact key h1 fun e => absurd (.inl e) hx
  | insert d k =>
    obtain ⟨rfl, h6⟩ := exec_insert he
    obtain ⟨t, _, rfl⟩ := Out.map_eq_ok.1 h6; exact h
  | getDesc a y k => obtain ⟨t, h1, h2⟩ := onTenant_ok he; cases h2; exact h
  | setDesc a y d k => obtain ⟨t, h1, h2⟩ := onTenant_ok he; cases h2; exact key h1 fun _ => rfl

/-- What the goroutines are in was started; what they may write, their calls write. -/
theorem calm_of {ss0 : List Sched}
    (hs : ∀ x i d, .start i (.tAddDescendant x d) ∈ ss0 → ∀ j, (∀ n, .start j (.tSetDefaultNamespace x n) ∉ ss0) ∧ ∀ y, .start j (.tAddDescendant y x) ∉ ss0)
    (ss : List Sched) : ∀ {c : Conf}, (∀ s ∈ ss, s ∈ ss0) →
      (∀ n op p, some (n, op, p) ∈ c.th → (∃ i, .start i op ∈ ss0) ∧
        ∀ x, Writes x p → (∃ n, op = .tSetDefaultNamespace x n) ∨ ∃ y, op = .tAddDescendant y x) → CalmRun c ss := by
  induction ss with
  | nil => intro c _ _; trivial
  | cons s ss ih =>
    intro c hsub hth c' hc'
    cases s with
    | start i op =>
      simp only [Conf.step] at hc'
      split at hc'
      · cases hc'
        refine ⟨fun n x d p _ m h => h, ih (fun s h => hsub s (by simp [h])) ?_⟩
        intro n op' p hm
        rcases List.mem_or_eq_of_mem_set hm with h1 | h1
        · exact hth n op' p h1
        · cases h1
          exact ⟨⟨i, hsub _ (by simp)⟩, fun x hx => hx.op⟩
      · cases hc'
    | go i =>
      simp only [Conf.step] at hc'
      split at hc'
      · cases hc'
        refine ⟨fun n x d p _ m h => h, ih (fun s h => hsub s (by simp [h])) ?_⟩
        intro n op' p hm
        rcases List.mem_or_eq_of_mem_set hm with h1 | h1
        · exact hth n op' p h1
        · cases h1
      · rename_i n op p hp hi
        obtain ⟨⟨w', p'⟩, hx, rfl⟩ := Out.map_eq_ok.1 hc'
        obtain ⟨⟨j, hj⟩, hw⟩ := hth n op p (List.mem_of_getElem? hi)
        refine ⟨?_, ih (fun s h => hsub s (by simp [h])) ?_⟩
        · intro n0 x d p0 hm m h
          obtain ⟨⟨j0, hj0⟩, _⟩ := hth n0 _ p0 hm
          refine exec_def hx (fun hwx => ?_) h
          obtain ⟨a1, a2⟩ := hs x j0 d hj0 j
          rcases hw x hwx with ⟨m', rfl⟩ | ⟨y, rfl⟩
          · exact a1 m' hj
          · exact a2 y hj
        · intro n0 op0 p0 hm
          rcases List.mem_or_eq_of_mem_set hm with h1 | h1
          · exact hth n0 op0 p0 h1
          · cases h1
            exact ⟨⟨j, hj⟩, fun x h => hw x (h.step hx)⟩
      · cases hc'

/-- C112 (partial): it holds when no default namespace of a tenant that gets a descendant is set, by `SetDefaultNamespace` or because the tenant
is made a descendant itself, and no tenant has or gets two different descendants with the same identifier. -/
theorem C112_defaults_set {w : Mgr} {k : Nat} {ss : List Sched} {c : Conf} (inv : w.Inv) (hr : (Conf.start w k).run ss = .ok c)
    (hs : ∀ x i d, .start i (.tAddDescendant x d) ∈ ss → ∀ j, (∀ n, .start j (.tSetDefaultNamespace x n) ∉ ss) ∧ ∀ y, .start j (.tAddDescendant y x) ∉ ss)
    (hu : ∀ x d d' t, Child w ss x d → Child w ss x d' → HasId w d t → HasId w d' t → d = d') (hq : c.Quiet) : ∃ L, OneAtATime w c L := by
  refine C112_one_at_a_time_partial inv hr (calm_of hs ss (fun _ h => h) ?_) hu hq
  intro n op p hm
  simp [Conf.start] at hm

/-! ## AddDescendant is not one step -/

theorem SeqRun.mops {w v : Mgr} {L : List (Nat × Op × Option Err)} (h : SeqRun w L v) : MOp.run w (L.map fun x => x.2.1.mop) = .ok v := by
  induction h with
  | nil => rfl
  | snoc _ h2 ih => rw [List.map_append]; exact MOp.run_snoc.2 ⟨_, ih, seq_mop h2⟩

/-- Two tenants, two namespaces; the first tenant has a default namespace. -/
def exTwoOps : List MOp :=
  [.newTenant (str "a"), .newTenant (str "b"), .addTenant 0, .addTenant 1, .addNamespace (str "n") 0, .addNamespace (str "m") 1,
   .addPrincipal (str "p") 0, .role (.newRole (str "r")), .addRole 0, .tSetDefaultNamespace 0 (str "n")]

def exTwo : Mgr := match MOp.run {} exTwoOps with
  | .ok w => w
  | _ => {}

theorem exTwo_run : MOp.run {} exTwoOps = .ok exTwo := by
  unfold exTwo
  have : ∃ w, MOp.run {} exTwoOps = .ok w := ⟨_, rfl⟩
  obtain ⟨w, h⟩ := this
  rw [h]

theorem exTwo_inv : exTwo.Inv := MOp.reachable_inv exTwo_run

/-- The default namespace of the parent changes while a descendant is added. -/
def exTorn : List Sched :=
  [.start 0 (.tAddDescendant 0 1), .go 0, .go 0, .go 0, .go 0, .go 0, .go 0,
   .start 1 (.tSetDefaultNamespace 0 (str "m")), .go 1, .go 1, .go 1, .go 1,
   .go 0, .go 0, .go 0, .go 0, .go 0]

def exTornEnd : Conf := match (Conf.start exTwo 2).run exTorn with
  | .ok c => c
  | _ => Conf.start exTwo 2

theorem exTorn_run : (Conf.start exTwo 2).run exTorn = .ok exTornEnd := by
  have : ∃ c, (Conf.start exTwo 2).run exTorn = .ok c := ⟨_, rfl⟩
  unfold exTornEnd
  obtain ⟨c, h⟩ := this
  rw [h]

theorem exTornEnd_hist : exTornEnd.hist = [.call 0 (.tAddDescendant 0 1), .call 1 (.tSetDefaultNamespace 0 (str "m")),
    .ret 1 (.tSetDefaultNamespace 0 (str "m")) none, .ret 0 (.tAddDescendant 0 1) none] := by decide +kernel

/-- The default namespace of the second tenant. -/
def secondDef (w : Mgr) : Option Str := w.tobjs[1]?.bind (·.defNs)

/-- The descendant has a row for the old default namespace of its parent, and the new one as its default namespace. -/
theorem exTornEnd_state : secondDef exTornEnd.w = some (str "m") ∧
    ({ tenant := .str (str "b"), namespace_ := .str (str "n") } : Data) ∈ exTornEnd.w.log := by decide +kernel

theorem perm_two {α : Type} {x y : α} {l : List α} (h : l.Perm [x, y]) : l = [x, y] ∨ l = [y, x] := by
  match l, h.length_eq with
  | [a, b], _ =>
    have ha : a ∈ [x, y] := h.subset (by simp)
    simp only [List.mem_cons, List.not_mem_nil, or_false] at ha
    rcases ha with rfl | rfl
    · have := List.perm_singleton.1 (List.perm_cons _ |>.1 h)
      rw [this]; exact .inl rfl
    · have h' : [a, b].Perm [a, x] := h.trans (List.Perm.swap _ _ _)
      have := List.perm_singleton.1 (List.perm_cons _ |>.1 h')
      rw [this]; exact .inr rfl

/-- C112 is violated by `AddDescendant`: it reads the default namespace of the parent once for the row and once more for the default
namespace of the descendant. -/
theorem C112_full_false : ¬ C112_full := by
  intro h
  obtain ⟨L, hL⟩ := h exTwo 2 exTorn exTornEnd exTwo_inv exTorn_run (by
    have : exTornEnd.th.map Option.isNone = [true, true] := by decide +kernel
    intro t ht
    have := List.mem_map_of_mem (f := Option.isNone) ht
    simp_all)
  obtain ⟨v, hv, hs⟩ := hL.same
  have hm := hv.mops
  have hL1 : ∀ x, x ∈ L ↔ x ∈ [((0, .tAddDescendant 0 1, none) : Nat × Op × Option Err), (1, .tSetDefaultNamespace 0 (str "m"), none)] := by
    rintro ⟨n, op, e⟩
    rw [hL.calls, exTornEnd_hist]
    simp
    tauto
  have hn : L.Nodup := hL.once.of_map _
  have hp := (List.perm_ext_iff_of_nodup hn (by simp)).2 hL1
  have hd : secondDef v = some (str "m") := by
    have h1 := exTornEnd_state.1
    unfold secondDef at h1 ⊢
    obtain ⟨t, h2, h3⟩ := Option.bind_eq_some_iff.1 h1
    have hl : 1 < v.tobjs.length := hs.size ▸ (List.getElem?_eq_some_iff.1 h2).1
    have h4 := List.getElem?_eq_getElem hl
    rw [h4, Option.bind_some, (hs.tenants 1 _ t h4 h2).2.2.1]
    exact h3
  have hr : ({ tenant := .str (str "b"), namespace_ := .str (str "n") } : Data) ∈ v.log := hs.rows.mem_iff.2 exTornEnd_state.2
  rcases perm_two hp with rfl | rfl
  · have : (MOp.run exTwo [.tAddDescendant 0 [1], .tSetDefaultNamespace 0 (str "m")]).map secondDef = .ok (some (str "n")) := by decide +kernel
    rw [show MOp.run exTwo [.tAddDescendant 0 [1], .tSetDefaultNamespace 0 (str "m")] = .ok v from hm] at this
    simp only [Out.map, Out.bind_ok, Out.ok.injEq] at this
    rw [hd] at this
    exact absurd this (by decide)
  · have : (MOp.run exTwo [.tSetDefaultNamespace 0 (str "m"), .tAddDescendant 0 [1]]).map (·.log) =
        .ok [{ tenant := .str (str "b"), namespace_ := .str (str "m") }] := by decide +kernel
    rw [show MOp.run exTwo [.tSetDefaultNamespace 0 (str "m"), .tAddDescendant 0 [1]] = .ok v from hm] at this
    simp only [Out.map, Out.bind_ok, Out.ok.injEq] at this
    rw [this] at hr
    exact absurd hr (by decide)

/-- Two goroutines add the same descendant. -/
def exCalm : List Sched :=
  [.start 0 (.tAddDescendant 0 1), .start 1 (.tAddDescendant 0 1), .go 0, .go 1, .go 0, .go 1, .go 1, .go 1, .go 1, .go 0, .go 0, .go 0, .go 0, .go 1,
   .go 1, .go 0, .go 0, .go 1, .go 1, .go 0, .go 0, .go 0, .go 1, .go 1]

/-- The hypotheses of `C112_defaults_set` and `C112_one_at_a_time_partial` are met by it: both find no link and make it, both inherit. -/
example : (∃ c, (Conf.start exTwo 2).run exCalm = .ok c ∧ c.Quiet ∧ secondDef c.w = some (str "n") ∧ c.w.log.length = 2) ∧
    (∀ x i d, .start i (.tAddDescendant x d) ∈ exCalm → ∀ j, (∀ n, .start j (.tSetDefaultNamespace x n) ∉ exCalm) ∧
      ∀ y, .start j (.tAddDescendant y x) ∉ exCalm) ∧
    (∀ x d d' t, Child exTwo exCalm x d → Child exTwo exCalm x d' → HasId exTwo d t → HasId exTwo d' t → d = d') := by
  refine ⟨⟨_, rfl, by unfold Conf.Quiet; decide +kernel, by decide +kernel, by decide +kernel⟩, ?_, ?_⟩
  · intro x i d h j
    simp [exCalm] at h ⊢
    omega
  · have key : ∀ x d, Child exTwo exCalm x d → d = 1 := by
      rintro x d (⟨i, o, h1, h2⟩ | ⟨i, h⟩)
      · have : exTwo.tobjs.map (·.desc.length) = [0, 0] := by decide +kernel
        have hm := List.mem_map_of_mem (f := (·.desc.length)) (List.mem_of_getElem? h1)
        rw [this] at hm
        simp only [List.mem_cons, List.not_mem_nil, or_false, or_self, List.length_eq_zero_iff] at hm
        rw [hm] at h2; cases h2
      · simp [exCalm] at h
        omega
    intro x d d' t h1 h2 _ _
    rw [key x d h1, key x d' h2]

/-- The hypotheses of `C112_no_descendants` are met, with the grant in effect after the change of the default namespace although
its first row came before. -/
example : ∃ c, (Conf.start exTwo 2).run
    [.start 0 (.tAddPrincipalWithRole 0 (str "p") (str "r") false), .go 0, .go 0, .go 0, .go 0, .go 0, .go 0, .go 0,
     .start 1 (.tSetDefaultNamespace 0 (str "m")), .go 1, .go 1, .go 1, .go 1, .go 0, .go 0, .go 0, .go 0] = .ok c ∧ c.Quiet ∧
    c.w.log.map (·.namespace_) = [.nil, .str (str "m")] := ⟨_, rfl, by unfold Conf.Quiet; decide +kernel, by decide +kernel⟩

/-! ## No crash -/

/-- No step of the call dereferences a nil pointer, given tenants at `V`, with a manager at `M`, with a default namespace at `D`. -/
def Safe (V M D : Nat → Prop) : Prog → Prop
  | .ret _ => True
  | .crash => False
  | .readMgr c k => M c ∧ Safe V M D k
  | .writeMgr c k => V c ∧ Safe V (fun x => M x ∨ x = c) D k
  | .get _ _ k => Safe V M D (k true) ∧ Safe V M D (k false)
  | .set _ _ _ k => Safe V M D k
  | .readDef c k => V c ∧ (¬ D c → Safe V M D (k none)) ∧ ∀ n, Safe V M (fun x => D x ∨ x = c) (k (some n))
  | .writeDef c _ k => V c ∧ Safe V M (fun x => D x ∨ x = c) k
  | .insert _ k => Safe V M D k
  | .getDesc c _ k => V c ∧ Safe V M D (k true) ∧ Safe V M D (k false)
  | .setDesc c _ _ k => V c ∧ Safe V M D k

/-- The tenant at `c` has a default namespace. -/
def Defd (w : Mgr) (c : Nat) : Prop := ∃ o, w.tobjs[c]? = some o ∧ o.defNs.isSome

theorem Defd.mono {w w' : Mgr} {c : Nat} (m : Mono w w') (h : Defd w c) : Defd w' c := by
  obtain ⟨o, h1, h2⟩ := h
  obtain ⟨o', h3, _, _, h4⟩ := m.ten c o h1
  exact ⟨o', h3, h4 h2⟩

/-- The rest of the call is safe from here. -/
def Good (w : Mgr) (p : Prog) : Prop := ∃ V M D : Nat → Prop, (∀ c, V c → ∃ t, HasId w c t) ∧ (∀ c, M c → Managed w c) ∧ (∀ c, D c → Defd w c) ∧
  Safe V M D p

theorem Good.mono {w w' : Mgr} {p : Prog} (m : Mono w w') (h : Good w p) : Good w' p := by
  obtain ⟨V, M, D, h1, h2, h3, h4⟩ := h
  exact ⟨V, M, D, fun c hc => (h1 c hc).imp fun t ht => ht.mono m, fun c hc => (h2 c hc).mono m, fun c hc => (h3 c hc).mono m, h4⟩

/-- A safe call takes a step and is still safe. -/
theorem Good.step {w : Mgr} (tr : TrieInv dataKeys w.log w.trie) {p : Prog} (h : Good w p) (hp : ∀ e, p ≠ .ret e) :
    ∃ w' p', exec w p = .ok (w', p') ∧ Good w' p' ∧ TrieInv dataKeys w'.log w'.trie := by
  obtain ⟨V, M, D, h1, h2, h3, h4⟩ := h
  cases p with
  | ret e => exact absurd rfl (hp e)
  | crash => exact absurd h4 id
  | readMgr c k =>
    obtain ⟨o, a, b⟩ := h2 c h4.1
    exact ⟨w, k, by simp [exec, onTenant, a, b], ⟨V, M, D, h1, h2, h3, h4.2⟩, tr⟩
  | writeMgr c k =>
    obtain ⟨_, o, a, _⟩ := h1 c h4.1
    have m : Mono w { w with tobjs := w.tobjs.set c { o with managed := true } } := mono_tobj a rfl (fun _ => rfl) id
    refine ⟨_, k, by simp [exec, onTenant, a], ⟨V, _, D, fun c hc => (h1 c hc).imp fun t ht => ht.mono m, ?_, fun c hc => (h3 c hc).mono m, h4.2⟩, tr⟩
    rintro x (hx | rfl)
    · exact (h2 x hx).mono m
    · exact ⟨_, List.getElem?_set_self (List.getElem?_eq_some_iff.1 a).1, rfl⟩
  | get r x k =>
    refine ⟨w, _, rfl, ⟨V, M, D, h1, h2, h3, ?_⟩, tr⟩
    cases ((r.of w).get x).isSome
    · exact h4.2
    · exact h4.1
  | set r x obj k =>
    refine ⟨_, _, rfl, Good.mono mono_put ⟨V, M, D, h1, h2, h3, h4⟩, ?_⟩
    cases r <;> exact tr
  | readDef c k =>
    obtain ⟨hv, hn, hs⟩ := h4
    obtain ⟨_, o, a, _⟩ := h1 c hv
    refine ⟨w, k o.defNs, by simp [exec, onTenant, a], ?_, tr⟩
    cases hd : o.defNs with
    | none =>
      refine ⟨V, M, D, h1, h2, h3, hn fun hc => ?_⟩
      obtain ⟨o', a', b'⟩ := h3 c hc
      rw [a] at a'; cases a'
      rw [hd] at b'; cases b'
    | some n =>
      refine ⟨V, M, _, h1, h2, ?_, hs n⟩
      rintro x (hx | rfl)
      · exact h3 x hx
      · exact ⟨o, a, by rw [hd]; rfl⟩
  | writeDef c n k =>
    obtain ⟨_, o, a, _⟩ := h1 c h4.1
    have m : Mono w { w with tobjs := w.tobjs.set c { o with defNs := some n } } := mono_tobj a rfl id (fun _ => rfl)
    refine ⟨_, k, by simp [exec, onTenant, a], ⟨V, M, _, fun c hc => (h1 c hc).imp fun t ht => ht.mono m, fun c hc => (h2 c hc).mono m, ?_, h4.2⟩, tr⟩
    rintro x (hx | rfl)
    · exact (h3 x hx).mono m
    · exact ⟨_, List.getElem?_set_self (List.getElem?_eq_some_iff.1 a).1, rfl⟩
  | insert d k =>
    obtain ⟨t, ht⟩ : ∃ t, w.trie.insert (some d) = .ok t := by
      rw [Trie.insert]; simp only [tr.keysEq, dataKeys]; exact ⟨_, rfl⟩
    have ha : w.addData d = .ok { w with trie := t, log := w.log ++ [d] } := by rw [Mgr.addData, ht]; rfl
    exact ⟨_, k, by simp [exec, ha, Out.map], Good.mono (mono_data ha).1 ⟨V, M, D, h1, h2, h3, h4⟩, tr.insert ht⟩
  | getDesc c x k =>
    obtain ⟨_, o, a, _⟩ := h1 c h4.1
    refine ⟨w, k (o.desc.get x).isSome, by simp [exec, onTenant, a], ⟨V, M, D, h1, h2, h3, ?_⟩, tr⟩
    cases (o.desc.get x).isSome
    · exact h4.2.2
    · exact h4.2.1
  | setDesc c x d k =>
    obtain ⟨_, o, a, _⟩ := h1 c h4.1
    have m : Mono w { w with tobjs := w.tobjs.set c { o with desc := o.desc.set x d } } := mono_tobj a rfl id id
    exact ⟨_, k, by simp [exec, onTenant, a], Good.mono m ⟨V, M, D, h1, h2, h3, h4.2⟩, tr⟩

/-- The objects named exist, and the tenants whose methods are called have a manager. -/
def Op.Fine (w : Mgr) : Op → Prop
  | .addTenant a => ∃ t, HasId w a t
  | .addRole r => ∃ ro, w.heap.roles[r]? = some ro
  | .tAddNamespace c _ | .tAddScopesToNamespace c _ _ | .tSetDefaultNamespace c _ | .tAddPrincipalInNamespace c _ _ _
  | .tAddRole c _ | .tAddScope c _ | .tAddPrincipalWithRole c _ _ _ | .tAddScopeToPrincipal c _ _ _ => Managed w c
  | .tAddDescendant c d => (∃ t, HasId w c t) ∧ Managed w d
  | _ => True

theorem Op.Fine.good {w : Mgr} {op : Op} (h : op.Fine w) : Good w (op.prog w) := by
  have one : ∀ c (f : Str → Prog), Managed w c → (∀ t, Safe (· = c) (· = c) (fun _ => False) (f t)) → Good w (Op.prog.tenant w c f) := by
    intro c f ⟨o, h1, h2⟩ h3
    refine ⟨(· = c), (· = c), fun _ => False, ?_, ?_, fun _ h => absurd h id, ?_⟩
    · rintro _ rfl; exact ⟨_, o, h1, rfl⟩
    · rintro _ rfl; exact ⟨o, h1, h2⟩
    · unfold Op.prog.tenant; rw [h1]; exact h3 _
  have none_ : ∀ p, Safe (fun _ => False) (fun _ => False) (fun _ => False) p → Good w p := fun p hp =>
    ⟨_, _, _, fun _ h => absurd h id, fun _ h => absurd h id, fun _ h => absurd h id, hp⟩
  cases op with
  | addTenant a =>
    obtain ⟨t, o, h1, h2⟩ := h
    refine ⟨(· = a), fun _ => False, fun _ => False, ?_, fun _ h => absurd h id, fun _ h => absurd h id, ?_⟩
    · rintro _ rfl; exact ⟨t, o, h1, h2⟩
    · simp [Op.prog, h1, register, Safe]
  | addNamespace x obj => exact none_ _ (by simp [Op.prog, register, Safe])
  | addScope x obj => exact none_ _ (by simp [Op.prog, register, Safe])
  | addPrincipal x obj => exact none_ _ (by simp [Op.prog, register, Safe])
  | addRole r =>
    obtain ⟨ro, h1⟩ := h
    exact none_ _ (by simp [Op.prog, h1, register, Safe])
  | tAddNamespace c n => rw [Op.prog]; exact one c _ h fun t => by simp [addRow, Safe]
  | tAddScopesToNamespace c n s => rw [Op.prog]; exact one c _ h fun t => by simp [addRow, Safe]
  | tSetDefaultNamespace c n => rw [Op.prog]; exact one c _ h fun t => by simp [setDefault, Safe]
  | tAddPrincipalInNamespace c p n r => rw [Op.prog]; exact one c _ h fun t => by simp [addRow, Safe]
  | tAddRole c r => rw [Op.prog]; exact one c _ h fun t => by simp [addRow, Safe]
  | tAddScope c s => rw [Op.prog]; exact one c _ h fun t => by simp [addRow, Safe]
  | tAddPrincipalWithRole c p r m => rw [Op.prog]; exact one c _ h fun t => by simp [grant, Safe]
  | tAddScopeToPrincipal c p s m => rw [Op.prog]; exact one c _ h fun t => by simp [grant, Safe]
  | tAddDescendant c d =>
    obtain ⟨⟨t, o, h1, h2⟩, u, h3, h4⟩ := h
    refine ⟨fun x => x = c ∨ x = d, (· = d), fun _ => False, ?_, ?_, fun _ h => absurd h id, ?_⟩
    · rintro _ (rfl | rfl)
      · exact ⟨t, o, h1, h2⟩
      · exact ⟨_, u, h3, rfl⟩
    · rintro _ rfl; exact ⟨u, h3, h4⟩
    · simp [Op.prog, Op.prog.tenant, h1, h3, link, setDefault, Safe]

/-- Every call of the schedule is begun when the objects it names exist and its tenants have a manager. -/
inductive FineRun : Conf → List Sched → Prop where
  | nil {c : Conf} : FineRun c []
  | start {c c' : Conf} {i : Nat} {op : Op} {ss : List Sched} : op.Fine c.w → c.step (.start i op) = .ok c' → FineRun c' ss →
      FineRun c (.start i op :: ss)
  | go {c : Conf} {i : Nat} {ss : List Sched} : (∀ c', c.step (.go i) = .ok c' → FineRun c' ss) → FineRun c (.go i :: ss)

/-- C112. No interleaving of calls on tenants with a manager crashes the program: although the default namespace is read more than
once, it is never nil after it has been seen not to be, and insertions never fail. -/
theorem C112_no_crash {w : Mgr} {k : Nat} {ss : List Sched} (inv : w.Inv) (hf : FineRun (Conf.start w k) ss) :
    (Conf.start w k).run ss ≠ .panic := by
  have key : ∀ (ss : List Sched) (c : Conf), TrieInv dataKeys c.w.log c.w.trie →
      (∀ (i n : Nat) (op : Op) (p : Prog), c.th[i]? = some (some (n, op, p)) → Good c.w p) → FineRun c ss → c.run ss ≠ .panic := by
    intro ss
    induction ss with
    | nil => intro c _ _ _ h; cases h
    | cons s ss ih =>
      intro c tr hg hf hr
      cases hf with
      | start h1 h2 h3 =>
        rename_i c' i op
        simp only [Conf.run, h2, Out.bind_ok] at hr
        simp only [Conf.step] at h2
        split at h2
        · rename_i hi
          cases h2
          refine ih _ ?_ ?_ h3 hr
          · exact tr
          intro j n op' p hj
          by_cases e : i = j
          · subst e
            rw [List.getElem?_set_self (List.getElem?_eq_some_iff.1 hi).1] at hj
            cases hj; exact h1.good
          · rw [List.getElem?_set_ne e] at hj; exact hg j n op' p hj
        · cases h2
      | go h1 =>
        rename_i i
        have hstep : c.step (.go i) = .diverge ∨ ∃ c', c.step (.go i) = .ok c' ∧ TrieInv dataKeys c'.w.log c'.w.trie ∧
            ∀ (j n : Nat) (op : Op) (p : Prog), c'.th[j]? = some (some (n, op, p)) → Good c'.w p := by
          simp only [Conf.step]
          split
          · rename_i n op e hi
            refine .inr ⟨_, rfl, tr, ?_⟩
            intro j n op' p hj
            by_cases e : i = j
            · subst e
              rw [List.getElem?_set_self (List.getElem?_eq_some_iff.1 hi).1] at hj
              cases hj
            · rw [List.getElem?_set_ne e] at hj; exact hg j n op' p hj
          · rename_i n op p hp hi
            obtain ⟨w', p', h2, h3, h4⟩ := (hg i n op p hi).step tr hp
            refine .inr ⟨_, by rw [h2]; rfl, h4, ?_⟩
            intro j n' op' q hj
            by_cases e : i = j
            · subst e
              rw [List.getElem?_set_self (List.getElem?_eq_some_iff.1 hi).1] at hj
              cases hj; exact h3
            · rw [List.getElem?_set_ne e] at hj; exact (hg j n' op' q hj).mono (exec_mono h2)
          · exact .inl rfl
        rcases hstep with h2 | ⟨c', h2, h3, h4⟩
        · simp only [Conf.run, h2] at hr; cases hr
        · simp only [Conf.run, h2, Out.bind_ok] at hr
          exact ih c' h3 h4 (h1 c' h2) hr
  refine key ss _ inv.trie ?_ hf
  intro i n op p h
  simp [Conf.start, List.getElem?_replicate] at h

/-- The calls of the counterexample do not crash either, so its hypotheses can be met by the calls at fault. -/
example : FineRun (Conf.start exTwo 2) [.start 0 (.tAddDescendant 0 1), .go 0] :=
  .start ⟨⟨_, _, rfl, rfl⟩, _, rfl, rfl⟩ rfl (.go fun _ _ => .nil)

/-! ## Rows are recorded when a call returns -/

/-- Every way to the end of the call without error inserts the row, unless `b`. -/
def Puts (d : Data) (b : Prop) : Prog → Prop
  | .ret e => e = none → b
  | .crash => True
  | .readMgr _ k | .writeMgr _ k | .set _ _ _ k | .writeDef _ _ k | .setDesc _ _ _ k => Puts d b k
  | .get _ _ k | .getDesc _ _ k => Puts d b (k true) ∧ Puts d b (k false)
  | .readDef _ k => Puts d b (k none) ∧ ∀ n, Puts d b (k (some n))
  | .insert d' k => Puts d (b ∨ d' = d) k

theorem Puts.mono {d : Data} {b b' : Prop} (h : b → b') : ∀ {p : Prog}, Puts d b p → Puts d b' p := by
  intro p
  induction p generalizing b b' with
  | ret e => exact fun h1 h2 => h (h1 h2)
  | crash => exact fun _ => trivial
  | readMgr c k ih => exact ih h
  | writeMgr c k ih => exact ih h
  | get r x k ih => exact fun h1 => ⟨ih true h h1.1, ih false h h1.2⟩
  | set r x o k ih => exact ih h
  | readDef c k ih => exact fun h1 => ⟨ih none h h1.1, fun n => ih (some n) h (h1.2 n)⟩
  | writeDef c n k ih => exact ih h
  | insert d' k ih => exact ih (Or.imp_left h)
  | getDesc c x k ih => exact fun h1 => ⟨ih true h h1.1, ih false h h1.2⟩
  | setDesc c x d' k ih => exact ih h

theorem exec_log {w w' : Mgr} {p p' : Prog} (h : exec w p = .ok (w', p')) : ∃ l, w'.log = w.log ++ l := by
  cases p with
  | ret e => cases h
  | crash => cases h
  | readMgr c k => obtain ⟨rfl, _⟩ := exec_readMgr h; exact ⟨[], by simp⟩
  | writeMgr c k => obtain ⟨t, h1, h2⟩ := onTenant_ok h; cases h2; exact ⟨[], by simp⟩
  | get r x k => cases h; exact ⟨[], by simp⟩
  | set r x obj k => cases h; exact ⟨[], by cases r <;> simp [Reg.put]⟩
  | readDef c k => obtain ⟨t, _, h2⟩ := onTenant_ok h; cases h2; exact ⟨[], by simp⟩
  | writeDef c n k => obtain ⟨t, h1, h2⟩ := onTenant_ok h; cases h2; exact ⟨[], by simp⟩
  | insert d k => exact ⟨[d], (mono_data (exec_insert h).2).2.2.2.2.2.2.2.2⟩
  | getDesc c x k => obtain ⟨t, _, h2⟩ := onTenant_ok h; cases h2; exact ⟨[], by simp⟩
  | setDesc c x d k => obtain ⟨t, h1, h2⟩ := onTenant_ok h; cases h2; exact ⟨[], by simp⟩

theorem Puts.step {w w' : Mgr} {d : Data} {p p' : Prog} (h : Puts d (d ∈ w.log) p) (he : exec w p = .ok (w', p')) :
    Puts d (d ∈ w'.log) p' := by
  obtain ⟨l, hl⟩ := exec_log he
  have up : d ∈ w.log → d ∈ w'.log := fun h => by rw [hl]; exact List.mem_append_left _ h
  cases p with
  | ret e => cases he
  | crash => cases he
  | readMgr c k => obtain ⟨rfl, rfl, _⟩ := exec_readMgr he; exact h
  | writeMgr c k => obtain ⟨t, h1, h2⟩ := onTenant_ok he; cases h2; exact Puts.mono up h
  | get r x k => cases he; cases ((r.of w).get x).isSome; exacts [h.2, h.1]
  | set r x obj k => cases he; exact Puts.mono up h
  | readDef c k =>
    obtain ⟨t, _, h2⟩ := onTenant_ok he; cases h2
    cases t.defNs with
    | none => exact h.1
    | some n => exact h.2 n
  | writeDef c n k => obtain ⟨t, h1, h2⟩ := onTenant_ok he; cases h2; exact Puts.mono up h
  | insert d' k =>
    obtain ⟨rfl, h1⟩ := exec_insert he
    refine Puts.mono (fun hd => ?_) h
    rcases hd with hd | rfl
    · exact up hd
    · rw [(mono_data h1).2.2.2.2.2.2.2.2]; simp
  | getDesc c x k => obtain ⟨t, _, h2⟩ := onTenant_ok he; cases h2; cases (t.desc.get x).isSome; exacts [h.2, h.1]
  | setDesc c x d' k => obtain ⟨t, h1, h2⟩ := onTenant_ok he; cases h2; exact Puts.mono up h

/-- The row that a call made for a tenant with identifier `t` is to add: the row of a method that adds one row, the row without a namespace
of a grant. -/
inductive Op.Row (t : Str) : Op → Nat → Data → Prop where
  | one {op c d} : RowOp t op c d → Op.Row t op c d
  | grant {op c p r x err row} : GrantOp t op c p r x err row → Op.Row t op c (row none)

theorem Op.Row.puts {w : Mgr} {t : Str} {op : Op} {c : Nat} {d : Data} (h : op.Row t c d) (hi : HasId w c t) :
    Puts d (d ∈ w.log) (op.prog w) := by
  obtain ⟨o, h1, rfl⟩ := hi
  cases h with
  | one h => cases h <;> simp [Op.prog, Op.prog.tenant, h1, addRow, Puts]
  | grant h => cases h <;> simp [Op.prog, Op.prog.tenant, h1, NC.grant, Puts]

/-- C112. Whatever other goroutines do, `AddDescendant` included: once a call has returned without error, its row has been
inserted. -/
theorem C112_recorded {w : Mgr} {k : Nat} {ss : List Sched} {c : Conf} (hr : (Conf.start w k).run ss = .ok c) {n a : Nat} {op : Op} {t : Str}
    {d : Data} (ht : HasId w a t) (hd : op.Row t a d) (he : Ev.ret n op none ∈ c.hist) : d ∈ c.w.log := by
  have key : ∀ (ss : List Sched) (c0 : Conf), HasId c0.w a t →
      (∀ (i m : Nat) (p : Prog), c0.th[i]? = some (some (m, op, p)) → Puts d (d ∈ c0.w.log) p) →
      (∀ m, Ev.ret m op none ∈ c0.hist → d ∈ c0.w.log) → c0.run ss = .ok c →
      ∀ m, Ev.ret m op none ∈ c.hist → d ∈ c.w.log := by
    intro ss
    induction ss with
    | nil => intro c0 _ _ h3 h4; cases h4; exact h3
    | cons s ss ih =>
      intro c0 h1 h2 h3 h4
      obtain ⟨c1, h5, h6⟩ := Out.bind_eq_ok.1 h4
      cases s with
      | start i op' =>
        simp only [Conf.step] at h5
        split at h5
        · rename_i hi
          cases h5
          refine ih _ ?_ ?_ ?_ h6
          · exact h1
          · intro j m p hj
            by_cases e : i = j
            · subst e
              rw [List.getElem?_set_self (List.getElem?_eq_some_iff.1 hi).1] at hj
              cases hj; exact hd.puts h1
            · rw [List.getElem?_set_ne e] at hj; exact h2 j m p hj
          · intro m hm
            simp only [List.mem_append, List.mem_singleton, reduceCtorEq, or_false] at hm
            exact h3 m hm
        · cases h5
      | go i =>
        simp only [Conf.step] at h5
        split at h5
        · rename_i n' op' e' hi
          cases h5
          refine ih _ ?_ ?_ ?_ h6
          · exact h1
          · intro j m p hj
            by_cases e : i = j
            · subst e
              rw [List.getElem?_set_self (List.getElem?_eq_some_iff.1 hi).1] at hj
              cases hj
            · rw [List.getElem?_set_ne e] at hj; exact h2 j m p hj
          · intro m hm
            simp only [List.mem_append, List.mem_singleton, Ev.ret.injEq] at hm
            rcases hm with hm | ⟨_, rfl, rfl⟩
            · exact h3 m hm
            · exact h2 i n' _ hi rfl
        · rename_i n' op' p hp hi
          obtain ⟨⟨w', p'⟩, hx, rfl⟩ := Out.map_eq_ok.1 h5
          obtain ⟨l, hl⟩ := exec_log hx
          have up : d ∈ c0.w.log → d ∈ w'.log := fun h => by rw [hl]; exact List.mem_append_left _ h
          refine ih _ ?_ ?_ ?_ h6
          · exact h1.mono (exec_mono hx)
          · intro j m q hj
            by_cases e : i = j
            · subst e
              rw [List.getElem?_set_self (List.getElem?_eq_some_iff.1 hi).1] at hj
              cases hj
              exact (h2 i n' p hi).step hx
            · rw [List.getElem?_set_ne e] at hj; exact (h2 j m q hj).mono up
          · exact fun m hm => up (h3 m hm)
        · cases h5
  refine key ss _ ht ?_ ?_ hr n he
  · intro i m p h
    simp [Conf.start, List.getElem?_replicate] at h
  · intro m hm; simp [Conf.start] at hm

/-- The hypotheses are met by a grant that ends while a descendant is being added. -/
example : ∃ c, (Conf.start exTwo 2).run
    ([.start 1 (.tAddDescendant 0 1), .go 1, .go 1, .start 0 (.tAddPrincipalWithRole 0 (str "p") (str "r") false)] ++ List.replicate 11 (.go 0)) = .ok c ∧
    Ev.ret 1 (.tAddPrincipalWithRole 0 (str "p") (str "r") false) none ∈ c.hist := ⟨_, rfl, by decide +kernel⟩

/-! ## A call made alone -/

/-- The rest of a call, without interruption. -/
def Prog.alone : Prog → Mgr → Out (Option Err × Mgr)
  | .ret e, w => .ok (e, w)
  | .crash, _ => .panic
  | .readMgr c k, w => onTenant w c fun t => if t.managed then k.alone w else .panic
  | .writeMgr c k, w => onTenant w c fun t => k.alone { w with tobjs := w.tobjs.set c { t with managed := true } }
  | .get r id k, w => (k ((r.of w).get id).isSome).alone w
  | .set r id obj k, w => k.alone (r.put w ((r.of w).set id obj))
  | .readDef c k, w => onTenant w c fun t => (k t.defNs).alone w
  | .writeDef c n k, w => onTenant w c fun t => k.alone { w with tobjs := w.tobjs.set c { t with defNs := some n } }
  | .insert d k, w => (w.addData d).bind fun w' => k.alone w'
  | .getDesc c id k, w => onTenant w c fun t => (k (t.desc.get id).isSome).alone w
  | .setDesc c id d k, w => onTenant w c fun t => k.alone { w with tobjs := w.tobjs.set c { t with desc := t.desc.set id d } }

theorem onTenant_bind {α β : Type} (w : Mgr) (c : Nat) (f : TenantObj → Out α) (g : α → Out β) :
    (onTenant w c f).bind g = onTenant w c fun t => (f t).bind g := by
  unfold onTenant; split <;> rfl

theorem alone_exec {w : Mgr} {p : Prog} (hp : ∀ e, p ≠ .ret e) : p.alone w = (exec w p).bind fun x => x.2.alone x.1 := by
  cases p with
  | ret e => exact absurd rfl (hp e)
  | crash => rfl
  | get r x k => rfl
  | set r x o k => rfl
  | insert d k => simp only [Prog.alone, exec]; cases w.addData d <;> rfl
  | readMgr c k =>
    simp only [Prog.alone, exec, onTenant_bind]
    congr 1; funext t; split <;> rfl
  | writeMgr c k => simp only [Prog.alone, exec, onTenant_bind]; rfl
  | readDef c k => simp only [Prog.alone, exec, onTenant_bind]; rfl
  | writeDef c n k => simp only [Prog.alone, exec, onTenant_bind]; rfl
  | getDesc c x k => simp only [Prog.alone, exec, onTenant_bind]; rfl
  | setDesc c x d k => simp only [Prog.alone, exec, onTenant_bind]; rfl

theorem alone_register {w : Mgr} (r : Reg) (x : Str) (obj : Nat) :
    (register r x obj).alone w = .ok (none, r.put w (Verif.register (r.of w) x obj).2) := by
  simp only [register, Prog.alone, Verif.register]
  cases h : (r.of w).get x with
  | none => rfl
  | some y => cases r <;> rfl

theorem alone_tenant {w : Mgr} {c : Nat} {f : Str → Prog} : (Op.prog.tenant w c f).alone w = onTenant w c fun t => (f t.id).alone w := by
  unfold Op.prog.tenant onTenant
  cases w.tobjs[c]? <;> rfl

theorem alone_row {w : Mgr} {c : Nat} {row : Str → Data} :
    (Op.prog.tenant w c fun t => addRow c (row t)).alone w = (w.withTenant c fun t => w.addData (row t.id)).map fun w' => (none, w') := by
  rw [alone_tenant]
  unfold onTenant Mgr.withTenant
  cases h : w.tobjs[c]? with
  | none => rfl
  | some t =>
    simp only [addRow, Prog.alone, onTenant, h]
    cases t.managed <;> rfl

theorem alone_setDefault {w : Mgr} {c : Nat} {n : Str} :
    (setDefault c n (.ret none)).alone w = (w.tSetDefaultNamespace c n).map fun w' => (none, w') := by
  unfold setDefault Mgr.tSetDefaultNamespace Mgr.withTenant
  simp only [Prog.alone, onTenant]
  cases h : w.tobjs[c]? with
  | none => rfl
  | some t =>
    simp only
    cases hm : t.managed with
    | false => rfl
    | true =>
      have e : Reg.namespaces.of w = w.namespaces := rfl
      simp only [if_true, e]
      by_cases hb : (w.namespaces.get n).isSome = true
      · simp only [hb, if_true, Prog.alone, onTenant, h, hm]; rfl
      · simp only [Bool.not_eq_true] at hb
        simp only [hb]; rfl

theorem alone_grant {w : Mgr} {c : Nat} {p : Str} {r : Reg} {x : Str} {err : Err} {row : Str → Option Str → Data} :
    (Op.prog.tenant w c fun t => grant c p r x err (row t)).alone w = w.withTenant c fun t =>
      if (w.principals.get p).isNone then .ok (some .noPrincipal, w)
      else if ((r.of w).get x).isNone then .ok (some err, w)
      else (w.addData (row t.id none)).bind fun w1 =>
        match t.defNs with
        | none => .ok (none, w1)
        | some n => (w1.addData (row t.id (some n))).map fun w2 => (none, w2) := by
  rw [alone_tenant]
  unfold onTenant Mgr.withTenant grant
  cases h : w.tobjs[c]? with
  | none => rfl
  | some t =>
    simp only [Prog.alone, onTenant, h]
    cases hm : t.managed with
    | false => rfl
    | true =>
      have e : Reg.principals.of w = w.principals := rfl
      simp only [if_true, e]
      rcases hp : w.principals.get p with _ | _
      · rfl
      · simp only [Option.isSome_some, Option.isNone_some, if_true, Prog.alone, onTenant, h, hm]
        rcases hx : (r.of w).get x with _ | _
        · rfl
        · simp only [Option.isSome_some, Option.isNone_some, if_true, Prog.alone, onTenant, h, hm]
          cases ha : w.addData (row t.id none) with
          | panic => rfl
          | diverge => rfl
          | ok w1 =>
            have ht : w1.tobjs = w.tobjs := by obtain ⟨_, _, rfl⟩ := Out.map_eq_ok.1 ha; rfl
            simp only [Out.bind_ok, ht, h]
            cases hn : t.defNs with
            | none => rfl
            | some n =>
              simp only [Prog.alone, onTenant, ht, h, hm, if_true, hn]
              rfl

theorem alone_link {w : Mgr} {c d : Nat} :
    (Op.prog.tenant w c fun _ => Op.prog.tenant w d fun t => link c d t).alone w = (w.tAddDescendant c [d]).map fun w' => (none, w') := by
  rw [alone_tenant]
  unfold onTenant
  cases hc : w.tobjs[c]? with
  | none => simp only [Mgr.tAddDescendant, hc]; rfl
  | some ct =>
    simp only
    rw [alone_tenant]
    unfold onTenant
    cases hd : w.tobjs[d]? with
    | none => simp only [Mgr.tAddDescendant, hc, hd]; rfl
    | some dt =>
      simp only
      obtain ⟨l1, l2, l3⟩ := linked_id ct dt.id d
      let v : Mgr := { w with tobjs := w.tobjs.set c (linked ct dt.id d) }
      have hlt := (List.getElem?_eq_some_iff.1 hc).1
      have vc : v.tobjs[c]? = some (linked ct dt.id d) := List.getElem?_set_self hlt
      obtain ⟨d1, vd, d2⟩ : ∃ d1, v.tobjs[d]? = some d1 ∧ d1.id = dt.id := by
        by_cases e : c = d
        · subst e
          rw [hc] at hd; cases hd
          exact ⟨_, vc, l1⟩
        · exact ⟨dt, (List.getElem?_set_ne e).trans hd, rfl⟩
      have e1 : (link c d dt.id).alone w = (lA c d dt.id).alone v := by
        rw [link_eq]
        have hv := linked_set (S := w) (d := d) (x := dt.id) hc
        simp only [Prog.alone, onTenant, hc]
        split at hv
        · rename_i hb
          rw [if_pos hb]
          show _ = (lA c d dt.id).alone { w with tobjs := w.tobjs.set c (linked ct dt.id d) }
          rw [← hv]
        · rename_i hb
          rw [if_neg hb]
          simp only [Prog.alone, onTenant, hc]
          rw [hv]
      rw [e1]
      simp only [Mgr.tAddDescendant, hc, hd, linked_set hc]
      show _ = Out.map _ (match ct.defNs with
        | none => Out.ok v
        | some n => (v.tAddNamespace d n).bind fun w2 => (w2.tSetDefaultNamespace d n).bind fun w3 => .ok w3)
      simp only [lA, lB, lC, lD, Prog.alone, onTenant, vc, l3]
      cases hn : ct.defNs with
      | none => rfl
      | some n =>
        simp only [Prog.alone, onTenant, vc, l3, hn, vd, Mgr.tAddNamespace, Mgr.withTenant]
        cases hm : d1.managed with
        | false => rfl
        | true =>
          simp only [if_true, d2]
          cases ha : v.addData { tenant := .str dt.id, namespace_ := .str n } with
          | panic => rfl
          | diverge => rfl
          | ok w2 =>
            have ht : w2.tobjs = v.tobjs := by obtain ⟨_, _, rfl⟩ := Out.map_eq_ok.1 ha; rfl
            simp only [Out.bind_ok, ht, vc, l3, hn]
            rw [alone_setDefault]
            cases w2.tSetDefaultNamespace d n <;> rfl

theorem alone_seq (w : Mgr) (op : Op) : (op.prog w).alone w = op.seq w := by
  cases op with
  | addTenant a =>
    simp only [Op.prog, Op.seq, Mgr.addTenant]
    cases h : w.tobjs[a]? with
    | none => rfl
    | some t =>
      simp only [Prog.alone, onTenant, h]
      rw [alone_register]; rfl
  | addNamespace id obj => exact alone_register _ _ _
  | addScope id obj => exact alone_register _ _ _
  | addPrincipal id obj => exact alone_register _ _ _
  | addRole r =>
    simp only [Op.prog, Op.seq, Mgr.addRole]
    cases h : w.heap.roles[r]? with
    | none => rfl
    | some ro => simp only; rw [alone_register]; rfl
  | tAddNamespace c n => rw [Op.prog]; exact alone_row
  | tAddScopesToNamespace c n s => rw [Op.prog]; exact alone_row
  | tSetDefaultNamespace c n =>
    rw [Op.prog, alone_tenant, Op.seq]
    unfold onTenant
    cases h : w.tobjs[c]? with
    | none => simp only [Mgr.tSetDefaultNamespace, Mgr.withTenant, h]; rfl
    | some t => exact alone_setDefault
  | tAddPrincipalInNamespace c p n r => rw [Op.prog]; exact alone_row
  | tAddRole c r => rw [Op.prog]; exact alone_row
  | tAddScope c s => rw [Op.prog]; exact alone_row
  | tAddPrincipalWithRole c p r m => rw [Op.prog]; exact alone_grant
  | tAddScopeToPrincipal c p s m => rw [Op.prog]; exact alone_grant
  | tAddDescendant c d => rw [Op.prog]; exact alone_link

/-- A call that is not interrupted ends and does what the sequential description says, whatever the other goroutines are in. -/
theorem C112_alone {c : Conf} {i : Nat} (hi : c.th[i]? = some none) (op : Op) :
    (∀ e w', op.seq c.w = .ok (e, w') → ∃ m, c.run (.start i op :: List.replicate m (.go i)) =
      .ok { c with w := w', hist := c.hist ++ [.call c.hist.length op, .ret c.hist.length op e] }) ∧
    (op.seq c.w = .panic → ∃ m, c.run (.start i op :: List.replicate m (.go i)) = .panic) := by
  have hl := (List.getElem?_eq_some_iff.1 hi).1
  have key : ∀ (p : Prog) (c : Conf) (n : Nat), c.th[i]? = some (some (n, op, p)) → i < c.th.length →
      (∀ e w', p.alone c.w = .ok (e, w') → ∃ m, c.run (List.replicate m (.go i)) =
        .ok { c with w := w', th := c.th.set i none, hist := c.hist ++ [.ret n op e] }) ∧
      (p.alone c.w = .panic → ∃ m, c.run (List.replicate m (.go i)) = .panic) := by
    have more : ∀ (p : Prog), (∀ e, p ≠ .ret e) → (∀ (w w' : Mgr) (p' : Prog), exec w p = .ok (w', p') → ∀ (c : Conf) (n : Nat), c.th[i]? = some (some (n, op, p')) →
        i < c.th.length → (∀ e w', p'.alone c.w = .ok (e, w') → ∃ m, c.run (List.replicate m (.go i)) =
          .ok { c with w := w', th := c.th.set i none, hist := c.hist ++ [.ret n op e] }) ∧
        (p'.alone c.w = .panic → ∃ m, c.run (List.replicate m (.go i)) = .panic)) →
        ∀ (c : Conf) (n : Nat), c.th[i]? = some (some (n, op, p)) → i < c.th.length →
        (∀ e w', p.alone c.w = .ok (e, w') → ∃ m, c.run (List.replicate m (.go i)) =
          .ok { c with w := w', th := c.th.set i none, hist := c.hist ++ [.ret n op e] }) ∧
        (p.alone c.w = .panic → ∃ m, c.run (List.replicate m (.go i)) = .panic) := by
      intro p hp ih c n hc hlc
      have hs : c.step (.go i) = (exec c.w p).map fun x => { c with w := x.1, th := c.th.set i (some (n, op, x.2)) } := by
        simp only [Conf.step]
        split
        · rename_i e; rw [hc] at e; cases e; exact absurd rfl (hp _)
        · rename_i e; rw [hc] at e; cases e; rfl
        · rename_i hno; exact absurd hc (hno n op p)
      rw [alone_exec hp]
      cases hx : exec c.w p with
      | panic =>
        refine ⟨fun e w' h => (by cases h), fun _ => ⟨1, ?_⟩⟩
        simp only [List.replicate, Conf.run, hs, hx]; rfl
      | diverge => exact ⟨fun e w' h => (by cases h), fun h => (by cases h)⟩
      | ok x =>
        obtain ⟨w1, p1⟩ := x
        rw [hx] at hs
        obtain ⟨h1, h2⟩ := ih c.w w1 p1 hx { c with w := w1, th := c.th.set i (some (n, op, p1)) } n (List.getElem?_set_self hlc) (by simpa using hlc)
        constructor
        · intro e w' h
          obtain ⟨m, hm⟩ := h1 e w' h
          refine ⟨m + 1, ?_⟩
          rw [List.replicate_succ, Conf.run, hs]
          simp only [List.set_set] at hm
          exact hm
        · intro h
          obtain ⟨m, hm⟩ := h2 h
          refine ⟨m + 1, ?_⟩
          rw [List.replicate_succ, Conf.run, hs]
          exact hm
    intro p
    induction p with
    | ret e0 =>
      intro c n hc hlc
      refine ⟨fun e w' h => ⟨1, ?_⟩, fun h => by cases h⟩
      cases h
      simp only [List.replicate, Conf.run, Conf.step, hc]; rfl
    | crash => exact more _ (fun _ h => by cases h) (fun w w' p' h => by cases h)
    | readMgr a k ih => exact more _ (fun _ h => by cases h) (fun w w' p' h => by obtain ⟨_, rfl, _⟩ := exec_readMgr h; exact ih)
    | writeMgr a k ih => exact more _ (fun _ h => by cases h) (fun w w' p' h => by obtain ⟨t, _, h2⟩ := onTenant_ok h; cases h2; exact ih)
    | get r y k ih => exact more _ (fun _ h => by cases h) (fun w w' p' h => by cases h; exact ih _)
    | set r y o k ih => exact more _ (fun _ h => by cases h) (fun w w' p' h => by cases h; exact ih)
    | readDef a k ih => exact more _ (fun _ h => by cases h) (fun w w' p' h => by obtain ⟨t, _, h2⟩ := onTenant_ok h; cases h2; exact ih _)
    | writeDef a n k ih => exact more _ (fun _ h => by cases h) (fun w w' p' h => by obtain ⟨t, _, h2⟩ := onTenant_ok h; cases h2; exact ih)
    | insert d k ih => exact more _ (fun _ h => by cases h) (fun w w' p' h => by obtain ⟨rfl, _⟩ := exec_insert h; exact ih)
    | getDesc a y k ih => exact more _ (fun _ h => by cases h) (fun w w' p' h => by obtain ⟨t, _, h2⟩ := onTenant_ok h; cases h2; exact ih _)
    | setDesc a y d k ih => exact more _ (fun _ h => by cases h) (fun w w' p' h => by obtain ⟨t, _, h2⟩ := onTenant_ok h; cases h2; exact ih)
  obtain ⟨h1, h2⟩ := key (op.prog c.w) { c with th := c.th.set i (some (c.hist.length, op, op.prog c.w)), hist := c.hist ++ [.call c.hist.length op] }
    c.hist.length (List.getElem?_set_self hl) (by simpa using hl)
  have hs : c.step (.start i op) =
      .ok { c with th := c.th.set i (some (c.hist.length, op, op.prog c.w)), hist := c.hist ++ [.call c.hist.length op] } := by
    simp only [Conf.step, hi]
  rw [← alone_seq]
  constructor
  · intro e w' h
    obtain ⟨m, hm⟩ := h1 e w' h
    refine ⟨m, ?_⟩
    rw [Conf.run, hs]
    simp only [List.set_set, set_same hi, List.append_assoc, List.cons_append, List.nil_append] at hm
    exact hm
  · intro h
    obtain ⟨m, hm⟩ := h2 h
    exact ⟨m, by rw [Conf.run, hs]; exact hm⟩

/-- Concrete case: linking one tenant under another one that has a default namespace. -/
example : (Op.tAddDescendant 0 1).seq exTwo ≠ .panic ∧ ((Op.tAddDescendant 0 1).seq exTwo).map (fun x => secondDef x.2) = .ok (some (str "n")) := by
  refine ⟨fun h => ?_, by decide +kernel⟩
  have : ((Op.tAddDescendant 0 1).seq exTwo).map (fun x => secondDef x.2) = .ok (some (str "n")) := by decide +kernel
  rw [h] at this; cases this

end NC
end Verif
