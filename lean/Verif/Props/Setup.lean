import Verif.Props.Grants

/-!
# Root manager: exact effect of the tenant setup calls, C72
-/

namespace Verif
open Spec

/-! ## Creating and registering -/

/-- C72. A new tenant has no descendant, no default namespace and no manager. -/
theorem C72_newTenant (w : Mgr) (id : Str) :
    (∀ (i : Nat) t, w.tobjs[i]? = some t → (w.newTenant id).tobjs[i]? = some t) ∧
    (w.newTenant id).tobjs[w.tobjs.length]? = some { id := id, desc := [], defNs := none, managed := false } ∧
    (w.newTenant id).tobjs.length = w.tobjs.length + 1 ∧ { w.newTenant id with tobjs := w.tobjs } = w := by
  refine ⟨fun i t h => ?_, by simp [Mgr.newTenant], by simp [Mgr.newTenant], rfl⟩
  rw [Mgr.newTenant, List.getElem?_append_left (List.getElem?_eq_some_iff.1 h).1]; exact h

/-- C72. Registering a tenant gives it the manager, registered or not, and changes nothing else but the
registry of tenants, where its id is entered unless it is there already. -/
theorem C72_addTenant (w : Mgr) {a : Nat} {t : TenantObj} (ha : w.tobjs[a]? = some t) :
    ∃ b w', w.addTenant a = .ok (b, w') ∧ w'.tobjs = w.tobjs.set a { t with managed := true } ∧
      (∀ k, w'.tenants.get k = (w.tenants.get k).or (if k = t.id then some a else none)) ∧
      w'.tenants.get t.id = some b ∧ { w' with tobjs := w.tobjs, tenants := w.tenants } = w := by
  rw [Mgr.addTenant, ha]
  refine ⟨_, _, rfl, rfl, ?_, ?_, rfl⟩
  · intro k
    simp only [register]
    split
    · rename_i d hd
      by_cases hk : k = t.id
      · subst hk; simp [hd]
      · simp [hk]
    · rename_i hd
      simp only [GoMap.get_set]
      by_cases hk : k = t.id
      · subst hk; simp [hd]
      · simp [hk, Ne.symm hk]
  · simp only [register]
    split
    · rename_i d hd; exact hd
    · simp

/-! ## Calls that insert one row -/

/-- The call inserts exactly `row`, if the tenant has a manager; without one it panics. -/
def InsertsRow (w : Mgr) (t : TenantObj) (r : Out Mgr) (row : Data) : Prop :=
  (t.managed = true → ∃ w', r = .ok w' ∧ w'.Inv ∧ Inserted w w' [row]) ∧ (t.managed = false → r = .panic)

theorem insertsRow {w : Mgr} (inv : w.Inv) {c : Nat} {t : TenantObj} (hc : w.tobjs[c]? = some t) (row : TenantObj → Data) :
    InsertsRow w t (w.withTenant c fun t => w.addData (row t)) (row t) := by
  rw [Mgr.withTenant, hc]
  constructor
  · intro hm
    obtain ⟨w', h1, h2⟩ := Inserted.one inv (row t)
    exact ⟨w', by simp only [hm, if_true, h1], inv.addData h1, h2⟩
  · intro hm; simp [hm]

/-- C72. `AddNamespace` inserts the row of the tenant and the namespace. -/
theorem C72_addNamespace {w : Mgr} (inv : w.Inv) {c : Nat} {t : TenantObj} (hc : w.tobjs[c]? = some t) (n : Str) :
    InsertsRow w t (w.tAddNamespace c n) { tenant := .str t.id, namespace_ := .str n } :=
  insertsRow inv hc fun t => { tenant := .str t.id, namespace_ := .str n }

/-- C72. `AddScopesToNamespace` inserts the row of the tenant, the namespace and the scope. -/
theorem C72_addScopesToNamespace {w : Mgr} (inv : w.Inv) {c : Nat} {t : TenantObj} (hc : w.tobjs[c]? = some t) (n s : Str) :
    InsertsRow w t (w.tAddScopesToNamespace c n s) { tenant := .str t.id, namespace_ := .str n, scope := .str s } :=
  insertsRow inv hc fun t => { tenant := .str t.id, namespace_ := .str n, scope := .str s }

/-- C72. `AddPrincipalInNamespace` inserts the row of the tenant, the namespace, the principal and the role,
and checks none of them. -/
theorem C72_addPrincipalInNamespace {w : Mgr} (inv : w.Inv) {c : Nat} {t : TenantObj} (hc : w.tobjs[c]? = some t) (p n r : Str) :
    InsertsRow w t (w.tAddPrincipalInNamespace c p n r)
      { tenant := .str t.id, namespace_ := .str n, principal := .str p, role := .str r } :=
  insertsRow inv hc fun t => { tenant := .str t.id, namespace_ := .str n, principal := .str p, role := .str r }

/-- C72. `AddRole` of a tenant inserts the row of the tenant and the role. -/
theorem C72_addRole {w : Mgr} (inv : w.Inv) {c : Nat} {t : TenantObj} (hc : w.tobjs[c]? = some t) (r : Str) :
    InsertsRow w t (w.tAddRole c r) { tenant := .str t.id, role := .str r } :=
  insertsRow inv hc fun t => { tenant := .str t.id, role := .str r }

/-- C72. `AddScope` of a tenant inserts the row of the tenant and the scope. -/
theorem C72_addScope {w : Mgr} (inv : w.Inv) {c : Nat} {t : TenantObj} (hc : w.tobjs[c]? = some t) (s : Str) :
    InsertsRow w t (w.tAddScope c s) { tenant := .str t.id, scope := .str s } :=
  insertsRow inv hc fun t => { tenant := .str t.id, scope := .str s }

/-! ## The same for a list -/

theorem insertsRows {f : Mgr → Str → Out Mgr} {row : TenantObj → Str → Data} {c : Nat}
    (h1 : ∀ {w : Mgr}, w.Inv → ∀ {t : TenantObj}, w.tobjs[c]? = some t → ∀ x, InsertsRow w t (f w x) (row t x))
    {w : Mgr} (inv : w.Inv) {t : TenantObj} (hc : w.tobjs[c]? = some t) (hm : t.managed = true) (xs : List Str) :
    ∃ w', Out.loop f w xs = .ok w' ∧ w'.Inv ∧ Inserted w w' (xs.map (row t)) := by
  induction xs generalizing w with
  | nil => exact ⟨w, rfl, inv, Inserted.nil w⟩
  | cons x xs ih =>
    obtain ⟨w1, e1, i1, s1⟩ := (h1 inv hc x).1 hm
    obtain ⟨w2, e2, i2, s2⟩ := ih i1 (by rw [s1]; exact hc)
    exact ⟨w2, by rw [Out.loop, e1, Out.bind_ok, e2], i2, s1.trans s2⟩

/-- C72. `AddNamespaces`, `AddRoles` and `AddScopes` insert one row for each argument, in order. -/
theorem C72_lists {w : Mgr} (inv : w.Inv) {c : Nat} {t : TenantObj} (hc : w.tobjs[c]? = some t) (hm : t.managed = true)
    (xs : List Str) :
    (∃ w', w.tAddNamespaces c xs = .ok w' ∧ w'.Inv ∧
      Inserted w w' (xs.map fun n => { tenant := .str t.id, namespace_ := .str n })) ∧
    (∃ w', w.tAddRoles c xs = .ok w' ∧ w'.Inv ∧ Inserted w w' (xs.map fun r => { tenant := .str t.id, role := .str r })) ∧
    (∃ w', w.tAddScopes c xs = .ok w' ∧ w'.Inv ∧ Inserted w w' (xs.map fun s => { tenant := .str t.id, scope := .str s })) :=
  ⟨insertsRows (row := fun t n => { tenant := .str t.id, namespace_ := .str n }) (fun i _ h x => C72_addNamespace i h x) inv hc hm xs,
   insertsRows (row := fun t r => { tenant := .str t.id, role := .str r }) (fun i _ h x => C72_addRole i h x) inv hc hm xs,
   insertsRows (row := fun t s => { tenant := .str t.id, scope := .str s }) (fun i _ h x => C72_addScope i h x) inv hc hm xs⟩

/-! ## The default namespace -/

/-- C72. `SetDefaultNamespace` sets the default namespace of the tenant if the namespace is registered with the
manager; otherwise nothing happens. Without a manager it panics. -/
theorem C72_setDefaultNamespace (w : Mgr) {c : Nat} {t : TenantObj} (hc : w.tobjs[c]? = some t) (n : Str) :
    (t.managed = true → IsKnown w.namespaces n →
      w.tSetDefaultNamespace c n = .ok { w with tobjs := w.tobjs.set c { t with defNs := some n } }) ∧
    (t.managed = true → ¬ IsKnown w.namespaces n → w.tSetDefaultNamespace c n = .ok w) ∧
    (t.managed = false → w.tSetDefaultNamespace c n = .panic) := by
  rw [Mgr.tSetDefaultNamespace, Mgr.withTenant, hc, isKnown_iff]
  refine ⟨fun hm hk => ?_, fun hm hk => ?_, fun hm => ?_⟩ <;> simp_all

/-! ## Descendants -/

/-- The id of a tenant object. -/
def idAt (w : Mgr) (d : Nat) : Option Str := w.tobjs[d]?.map (·.id)

/-- What `AddDescendant` does to tenant `c` (that is `ct`), passed the tenants `ds`. -/
structure Linked (w w' : Mgr) (c : Nat) (ct : TenantObj) (ds : List Nat) : Prop where
  len : w'.tobjs.length = w.tobjs.length
  /-- The rows: one for each tenant passed, if `c` has a default namespace. -/
  rows : w'.log = w.log ++ (match ct.defNs with
    | none => []
    | some n => (ds.filterMap (idAt w)).map fun id => { tenant := .str id, namespace_ := .str n })
  /-- The tenant objects: the default namespace of `c` goes to every tenant passed, nothing else changes but the links of `c`. -/
  objs : ∀ i t, w.tobjs[i]? = some t → ∃ t', w'.tobjs[i]? = some t' ∧ t'.id = t.id ∧ t'.managed = t.managed ∧
    (i ≠ c → t'.desc = t.desc) ∧
    (∀ n, ct.defNs = some n → i ∈ ds → IsKnown w.namespaces n → t'.defNs = some n) ∧
    ((ct.defNs = none ∨ i ∉ ds ∨ (∃ n, ct.defNs = some n ∧ ¬ IsKnown w.namespaces n)) → t'.defNs = t.defNs)
  /-- The links of `c`: what it had, and the first tenant passed under each other id. -/
  desc : ∃ ct', w'.tobjs[c]? = some ct' ∧ ∀ k, ct'.desc.get k = (ct.desc.get k).or (ds.find? fun d => idAt w d == some k)
  rest : { w' with trie := w.trie, log := w.log, tobjs := w.tobjs } = w

theorem Linked.ids {w w' : Mgr} {c : Nat} {ct : TenantObj} {ds : List Nat} (h : Linked w w' c ct ds) (i : Nat) :
    idAt w' i = idAt w i := by
  unfold idAt
  cases hi : w.tobjs[i]? with
  | none =>
    rw [List.getElem?_eq_none_iff, ← h.len, ← List.getElem?_eq_none_iff] at hi
    rw [hi]
  | some t =>
    obtain ⟨t', h1, h2, _⟩ := h.objs i t hi
    simp [h1, h2]

theorem Linked.names {w w' : Mgr} {c : Nat} {ct : TenantObj} {ds : List Nat} (h : Linked w w' c ct ds) :
    w'.namespaces = w.namespaces := by
  have := congrArg Mgr.namespaces h.rest; exact this

/-- The default namespace of `c` stays. -/
theorem Linked.def {w w' : Mgr} {c : Nat} {ct : TenantObj} {ds : List Nat} (h : Linked w w' c ct ds)
    (hc : w.tobjs[c]? = some ct) : ∃ ct', w'.tobjs[c]? = some ct' ∧ ct'.defNs = ct.defNs := by
  obtain ⟨t', h1, _, _, _, h5, h6⟩ := h.objs c ct hc
  refine ⟨t', h1, ?_⟩
  cases hd : ct.defNs with
  | none => rw [h6 (.inl hd), hd]
  | some n =>
    by_cases hk : IsKnown w.namespaces n
    · by_cases hi : c ∈ ds
      · exact h5 n hd hi hk
      · rw [h6 (.inr (.inl hi)), hd]
    · rw [h6 (.inr (.inr ⟨n, hd, hk⟩)), hd]

theorem Linked.trans {w w1 w2 : Mgr} {c : Nat} {ct ct1 : TenantObj} {l1 l2 : List Nat} (h1 : Linked w w1 c ct l1)
    (hc : w.tobjs[c]? = some ct) (hc1 : w1.tobjs[c]? = some ct1) (h2 : Linked w1 w2 c ct1 l2) :
    Linked w w2 c ct (l1 ++ l2) := by
  have hdef : ct1.defNs = ct.defNs := by
    obtain ⟨x, e1, e2⟩ := h1.def hc
    rw [hc1] at e1; cases e1; exact e2
  have ids : idAt w1 = idAt w := funext h1.ids
  refine ⟨h2.len.trans h1.len, ?_, ?_, ?_, ?_⟩
  · rw [h2.rows, h1.rows, hdef, ids]
    cases ct.defNs <;> simp
  · intro i t hi
    obtain ⟨t1, a1, a2, a3, a4, a5, a6⟩ := h1.objs i t hi
    obtain ⟨t2, b1, b2, b3, b4, b5, b6⟩ := h2.objs i t1 a1
    rw [hdef, h1.names] at b5 b6
    refine ⟨t2, b1, b2.trans a2, b3.trans a3, fun h => (b4 h).trans (a4 h), ?_, ?_⟩
    · intro n hn hm hk
      by_cases hi2 : i ∈ l2
      · exact b5 n hn hi2 hk
      · rw [b6 (.inr (.inl hi2))]
        exact a5 n hn ((List.mem_append.1 hm).resolve_right hi2) hk
    · intro h
      rw [b6 (h.imp_right (.imp_left fun h hh => h (List.mem_append_right _ hh))),
        a6 (h.imp_right (.imp_left fun h hh => h (List.mem_append_left _ hh)))]
  · obtain ⟨c1, e1, e2⟩ := h1.desc
    rw [hc1] at e1; cases e1
    obtain ⟨c2, f1, f2⟩ := h2.desc
    refine ⟨c2, f1, fun k => ?_⟩
    rw [f2, e2, ids, List.find?_append, Option.or_assoc]
  · have := h2.rest
    have e := h1.rest
    rw [← this] at e
    exact e

/-- No argument. -/
theorem Linked.nil (w : Mgr) {c : Nat} {ct : TenantObj} (hc : w.tobjs[c]? = some ct) : Linked w w c ct [] :=
  ⟨rfl, by cases ct.defNs <;> simp, fun i t hi => ⟨t, hi, rfl, rfl, fun _ => rfl, by simp, by simp⟩, ⟨ct, hc, by simp⟩, rfl⟩

/-- The link alone. -/
theorem link_step {w : Mgr} {c d : Nat} {ct dt : TenantObj} (hc : w.tobjs[c]? = some ct)
    (hd : w.tobjs[d]? = some dt) :
    ∃ ct1 w1, (if (ct.desc.get dt.id).isSome then w
        else { w with tobjs := w.tobjs.set c { ct with desc := ct.desc.set dt.id d } }) = w1 ∧
      w1 = { w with tobjs := w.tobjs.set c ct1 } ∧ ct1.id = ct.id ∧ ct1.defNs = ct.defNs ∧ ct1.managed = ct.managed ∧
      ∀ k, ct1.desc.get k = (ct.desc.get k).or ([d].find? fun d => idAt w d == some k) := by
  have ho : ∀ k, ([d].find? fun d => idAt w d == some k) = if k = dt.id then some d else none := by
    intro k
    simp only [List.find?_cons, idAt, hd, Option.map_some, List.find?_nil]
    by_cases hk : k = dt.id
    · subst hk; simp
    · have : (dt.id == k) = false := by simpa using fun e => hk e.symm
      simp [hk, this]
  split
  · rename_i hs
    refine ⟨ct, w, rfl, ?_, rfl, rfl, rfl, fun k => ?_⟩
    · have : w.tobjs.set c ct = w.tobjs := by
        apply List.ext_getElem?
        intro i
        rw [List.getElem?_set]
        split
        · rename_i h; subst h
          rw [hc, if_pos (List.getElem?_eq_some_iff.1 hc).1]
        · rfl
      rw [this]
    · rw [ho]
      by_cases hk : k = dt.id
      · subst hk
        obtain ⟨x, hx⟩ := Option.isSome_iff_exists.1 hs
        simp [hx]
      · simp [hk]
  · rename_i hs
    refine ⟨_, _, rfl, rfl, rfl, rfl, rfl, fun k => ?_⟩
    rw [ho]
    simp only [GoMap.get_set]
    by_cases hk : k = dt.id
    · subst hk
      simp [Option.not_isSome_iff_eq_none.1 hs]
    · have : ¬ dt.id = k := fun e => hk e.symm
      simp [hk, this]

/-- One argument. -/
theorem linked_one {w : Mgr} (inv : w.Inv) {c d : Nat} {ct dt : TenantObj} (hc : w.tobjs[c]? = some ct)
    (hd : w.tobjs[d]? = some dt) (hm : ct.defNs = none ∨ dt.managed = true) :
    ∃ w', w.tAddDescendant c [d] = .ok w' ∧ Linked w w' c ct [d] := by
  rw [Mgr.tAddDescendant, hc, hd]
  simp only [Mgr.tAddDescendant]
  have i1 : (if (ct.desc.get dt.id).isSome then w
      else { w with tobjs := w.tobjs.set c { ct with desc := ct.desc.set dt.id d } }).Inv := by
    split
    · exact inv
    · rename_i hs; exact inv.link hc hd (by simpa using hs)
  obtain ⟨ct1, w1, e1, e2, e3, e4, e5, e6⟩ := link_step hc hd
  rw [e1] at i1 ⊢
  have hlt := (List.getElem?_eq_some_iff.1 hc).1
  have hltd := (List.getElem?_eq_some_iff.1 hd).1
  have get1 : ∀ i : Nat, w1.tobjs[i]? = if c = i then some ct1 else w.tobjs[i]? := fun i => by
    rw [e2, List.getElem?_set]; simp only [hlt, if_true]
  have len1 : w1.tobjs.length = w.tobjs.length := by rw [e2]; simp
  have objs1 : ∀ i t, w.tobjs[i]? = some t → ∃ t', w1.tobjs[i]? = some t' ∧ t'.id = t.id ∧ t'.managed = t.managed ∧
      (i ≠ c → t'.desc = t.desc) ∧ t'.defNs = t.defNs := by
    intro i t hi
    rw [get1]
    by_cases hic : c = i
    · subst hic; rw [hc] at hi; cases hi
      exact ⟨ct1, by simp, e3, e5, fun h => absurd rfl h, e4⟩
    · exact ⟨t, by simp [hic, hi], rfl, rfl, fun _ => rfl, rfl⟩
  cases hn : ct.defNs with
  | none =>
    refine ⟨w1, rfl, len1, ?_, ?_, ⟨ct1, by simp [get1], e6⟩, by rw [e2]⟩
    · rw [hn, e2]; simp
    · intro i t hi
      obtain ⟨t', a1, a2, a3, a4, a5⟩ := objs1 i t hi
      exact ⟨t', a1, a2, a3, a4, by simp [hn], fun _ => a5⟩
  | some n =>
    obtain ⟨dt1, b1, b2, b3, b4, b5⟩ := objs1 d dt hd
    have hmd : dt1.managed = true := by rw [b3]; exact hm.resolve_left (by simp [hn])
    obtain ⟨w2, f1, _, f3⟩ := (C72_addNamespace i1 b1 n).1 hmd
    simp only [f1, Out.bind_ok]
    have t2 : w2.tobjs = w1.tobjs := by rw [f3]
    have n2 : w2.namespaces = w.namespaces := by rw [f3, e2]
    have hd2 : w2.tobjs[d]? = some dt1 := by rw [t2]; exact b1
    have log2 : w2.log = w.log ++ [{ tenant := .str dt.id, namespace_ := .str n }] := by rw [f3, e2, ← b2]
    have rest2 : { w2 with trie := w.trie, log := w.log, tobjs := w.tobjs } = w := by rw [f3, e2]
    have lrow : ([d].filterMap (idAt w)) = [dt.id] := by simp [idAt, hd]
    obtain ⟨g1, g2, _⟩ := C72_setDefaultNamespace w2 hd2 n
    by_cases hk : IsKnown w2.namespaces n
    · rw [g1 hmd hk]
      have get3 : ∀ i : Nat, (w2.tobjs.set d { dt1 with defNs := some n })[i]? =
          if d = i then some { dt1 with defNs := some n } else w1.tobjs[i]? := fun i => by
        rw [List.getElem?_set, t2, len1]; simp only [hltd, if_true]
      refine ⟨_, rfl, by simp [t2, len1], ?_, ?_, ?_, rest2⟩
      · simp only [log2, hn, lrow, List.map_cons, List.map_nil]
      · intro i t hi
        obtain ⟨t', a1, a2, a3, a4, a5⟩ := objs1 i t hi
        simp only [get3]
        by_cases hid : d = i
        · subst hid
          rw [b1] at a1; cases a1
          refine ⟨_, if_pos rfl, a2, a3, a4, fun m hm _ _ => ?_, ?_⟩
          · rw [hn] at hm; exact hm
          · rintro (h | h | ⟨m, h, h'⟩)
            · rw [hn] at h; cases h
            · simp at h
            · rw [hn] at h; cases h; exact absurd (n2 ▸ hk) h'
        · refine ⟨t', by simp [hid, a1], a2, a3, a4, fun m _ h => ?_, fun _ => a5⟩
          simp at h; exact absurd h.symm hid
      · simp only [get3]
        by_cases hdc : d = c
        · subst hdc
          have : dt1 = ct1 := by have := get1 d; rw [if_pos rfl, b1] at this; exact Option.some.inj this
          subst this
          exact ⟨_, if_pos rfl, e6⟩
        · exact ⟨ct1, by simp [hdc, get1], e6⟩
    · rw [g2 hmd hk]
      refine ⟨_, rfl, by simp [t2, len1], ?_, ?_, ?_, rest2⟩
      · simp only [log2, hn, lrow, List.map_cons, List.map_nil]
      · intro i t hi
        obtain ⟨t', a1, a2, a3, a4, a5⟩ := objs1 i t hi
        refine ⟨t', by rw [t2]; exact a1, a2, a3, a4, fun m hm _ h => ?_, fun _ => a5⟩
        rw [hn] at hm; cases hm; exact absurd (n2 ▸ h) hk
      · exact ⟨ct1, by rw [t2]; simp [get1], e6⟩

theorem Out.bind_bind {α β γ : Type} (x : Out α) (f : α → Out β) (g : β → Out γ) :
    (x.bind f).bind g = x.bind fun a => (f a).bind g := by cases x <;> rfl

theorem tAddDescendant_cons (w : Mgr) (c d : Nat) (ds : List Nat) :
    w.tAddDescendant c (d :: ds) = (w.tAddDescendant c [d]).bind fun w1 => w1.tAddDescendant c ds := by
  simp only [Mgr.tAddDescendant]
  split
  · split
    · rfl
    · simp only [Out.bind_bind, Out.bind_ok]
  · rfl

/-- C72. `AddDescendant` returns if the tenant has no default namespace or all descendants have a manager, and then
links every descendant whose id is not linked yet, and passes the default namespace on to all of them. -/
theorem C72_addDescendant {w : Mgr} (inv : w.Inv) {c : Nat} {ct : TenantObj} (hc : w.tobjs[c]? = some ct) {ds : List Nat}
    (hds : ∀ d ∈ ds, ∃ dt, w.tobjs[d]? = some dt ∧ (ct.defNs = none ∨ dt.managed = true)) :
    ∃ w', w.tAddDescendant c ds = .ok w' ∧ w'.Inv ∧ Linked w w' c ct ds := by
  induction ds generalizing w ct with
  | nil => exact ⟨w, rfl, inv, Linked.nil w hc⟩
  | cons d ds ih =>
    obtain ⟨dt, hd, hm⟩ := hds d (List.mem_cons_self ..)
    obtain ⟨w1, e1, l1⟩ := linked_one inv hc hd hm
    have i1 := inv.tAddDescendant e1
    obtain ⟨ct1, hc1, hdef⟩ := l1.def hc
    obtain ⟨w2, e2, i2, l2⟩ := ih i1 hc1 fun x hx => by
      obtain ⟨t, ht, hmt⟩ := hds x (List.mem_cons_of_mem _ hx)
      obtain ⟨t', h1, _, h3, _⟩ := l1.objs x t ht
      exact ⟨t', h1, by rw [hdef, h3]; exact hmt⟩
    exact ⟨w2, by rw [tAddDescendant_cons, e1, Out.bind_ok, e2], i2, l1.trans hc hc1 l2⟩

/-- C72. With a default namespace, a descendant without a manager makes `AddDescendant` panic. -/
theorem C72_addDescendant_panic {w : Mgr} {c d : Nat} {ct dt : TenantObj} (hc : w.tobjs[c]? = some ct)
    (hd : w.tobjs[d]? = some dt) (hn : ct.defNs ≠ none) (hm : dt.managed = false) (ds : List Nat) :
    w.tAddDescendant c (d :: ds) = .panic := by
  rw [tAddDescendant_cons, Mgr.tAddDescendant, hc, hd]
  simp only
  obtain ⟨ct1, w1, e1, e2, _, _, e5, _⟩ := link_step hc hd
  rw [e1]
  obtain ⟨n, hn⟩ := Option.ne_none_iff_exists'.1 hn
  have : ∃ t, w1.tobjs[d]? = some t ∧ t.managed = false := by
    rw [e2, List.getElem?_set]
    by_cases hcd : c = d
    · subst hcd; rw [hc] at hd; cases hd
      exact ⟨ct1, by simp [(List.getElem?_eq_some_iff.1 hc).1], by rw [e5]; exact hm⟩
    · exact ⟨dt, by simp [hcd, hd], hm⟩
  obtain ⟨t, ht, hmt⟩ := this
  have : w1.tAddNamespace d n = .panic := by rw [Mgr.tAddNamespace, Mgr.withTenant, ht]; simp [hmt]
  rw [hn]; simp [this]

/-- Tenant `0` with a default namespace, `1` and `2` with the same id, `3` without a manager. -/
def exSetup : List MOp := [.newTenant (str "a"), .newTenant (str "b"), .newTenant (str "b"), .newTenant (str "c"),
  .addTenant 0, .addTenant 1, .addTenant 2, .addNamespace (str "n") 7, .tSetDefaultNamespace 0 (str "n")]

/-- The hypotheses hold: the first tenant with id "b" is linked, both get the row and the default namespace. -/
example : ∃ w, MOp.run {} exSetup = .ok w ∧ (w.tobjs.map (·.defNs) = [some (str "n"), none, none, none] ∧
    w.tobjs.map (·.managed) = [true, true, true, false] ∧ w.tenants = [(str "a", 0), (str "b", 1)] ∧
    (w.tAddDescendant 0 [3] matches .panic) ∧
    (w.tAddDescendant 0 [1, 2]).Chk fun w' => w'.tobjs.map (·.desc) = [[(str "b", 1)], [], [], []] ∧
      w'.tobjs.map (·.defNs) = [some (str "n"), some (str "n"), some (str "n"), none] ∧
      w'.log = [{ tenant := .str (str "b"), namespace_ := .str (str "n") }, { tenant := .str (str "b"), namespace_ := .str (str "n") }]) :=
  Out.chk_ok (by decide +kernel)

/-- Without a default namespace no manager is needed, and an unregistered default is not set. -/
example : ∃ w, MOp.run {} exSetup = .ok w ∧ (((w.tAddDescendant 1 [3, 2]).Chk fun w' =>
      w'.tobjs.map (·.desc) = [[], [(str "c", 3), (str "b", 2)], [], []] ∧ w'.log = []) ∧
    ((w.tSetDefaultNamespace 0 (str "m")).Chk fun w' => w'.tobjs.map (·.defNs) = [some (str "n"), none, none, none]) ∧
    ((w.tAddScopes 0 [str "x", str "y"]).Chk fun w' => w'.log = [{ tenant := .str (str "a"), scope := .str (str "x") },
      { tenant := .str (str "a"), scope := .str (str "y") }])) :=
  Out.chk_ok (by decide +kernel)

end Verif
