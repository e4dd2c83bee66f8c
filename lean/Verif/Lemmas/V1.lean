import Verif.Spec.V1
import Verif.Lemmas.Grow

namespace Verif
open Spec

theorem splitByte_clean {c : UInt8} {s : Str} (h : c ∉ s) : splitByte c s = [s] := by
  induction s with
  | nil => rfl
  | cons a s ih =>
    simp only [List.mem_cons, not_or] at h
    rw [splitByte, if_neg (fun e => h.1 e.symm), ih h.2]

theorem splitByte_append {c : UInt8} {s t : Str} (h : c ∉ s) : splitByte c (s ++ c :: t) = s :: splitByte c t := by
  induction s with
  | nil => simp [splitByte]
  | cons a s ih =>
    simp only [List.mem_cons, not_or] at h
    rw [List.cons_append, splitByte, if_neg (fun e => h.1 e.symm), ih h.2]

theorem splitByte_ne_nil {c : UInt8} {s : Str} : splitByte c s ≠ [] := by
  cases s with
  | nil => simp [splitByte]
  | cons a s =>
    rw [splitByte]
    split
    · simp
    · split <;> simp

theorem splitByte_inv {c : UInt8} {s p : Str} {ps : List Str} (h : splitByte c s = p :: ps) :
    c ∉ p ∧ ((ps = [] ∧ s = p) ∨ ∃ t, s = p ++ c :: t ∧ splitByte c t = ps) := by
  induction s generalizing p ps with
  | nil => simp [splitByte] at h; obtain ⟨rfl, rfl⟩ := h; simp
  | cons a s ih =>
    rw [splitByte] at h
    split at h
    · rename_i e
      cases h
      exact ⟨by simp, .inr ⟨s, by simp [e], rfl⟩⟩
    · rename_i e
      split at h
      · rename_i e2; exact absurd e2 splitByte_ne_nil
      · rename_i q qs e2
        cases h
        obtain ⟨h1, h2⟩ := ih e2
        refine ⟨by simp only [List.mem_cons, not_or]; exact ⟨fun e3 => e e3.symm, h1⟩, ?_⟩
        rcases h2 with ⟨rfl, rfl⟩ | ⟨t, rfl, h3⟩
        · exact .inl ⟨rfl, rfl⟩
        · exact .inr ⟨t, rfl, h3⟩

namespace V1
variable {w w' : V1} {o : Ord}

theorem str_underscore : str "_" = [95] := by decide
theorem clean_true : NoUnderscore (str "true") := by unfold NoUnderscore; decide
theorem clean_false : NoUnderscore (str "false") := by unfold NoUnderscore; decide

theorem decode_iff {h : Str} {x : TP} : decode h = .ok x ↔ Fields h x := by
  constructor
  · intro hd
    unfold decode at hd
    split at hd
    · rename_i p r t n s f rest e
      cases hd
      obtain ⟨c1, ⟨h0, _⟩ | ⟨t1, rfl, e1⟩⟩ := splitByte_inv e
      · cases h0
      obtain ⟨c2, ⟨h0, _⟩ | ⟨t2, rfl, e2⟩⟩ := splitByte_inv e1
      · cases h0
      obtain ⟨c3, ⟨h0, _⟩ | ⟨t3, rfl, e3⟩⟩ := splitByte_inv e2
      · cases h0
      obtain ⟨c4, ⟨h0, _⟩ | ⟨t4, rfl, e4⟩⟩ := splitByte_inv e3
      · cases h0
      obtain ⟨c5, ⟨h0, _⟩ | ⟨t5, rfl, e5⟩⟩ := splitByte_inv e4
      · cases h0
      obtain ⟨c6, ⟨rfl, rfl⟩ | ⟨t6, rfl, e6⟩⟩ := splitByte_inv e5
      · exact ⟨t5, [], ⟨c1, c2, c3, c4, c5⟩, c6, by simp, .inl rfl, by simp⟩
      · exact ⟨f, 95 :: t6, ⟨c1, c2, c3, c4, c5⟩, c6, by simp, .inr ⟨_, rfl⟩, rfl⟩
    · cases hd
  · rintro ⟨f, rest, ⟨c1, c2, c3, c4, c5⟩, c6, hm, hr, rfl⟩
    have e6 : ∃ ps, splitByte 95 (f ++ rest) = f :: ps := by
      rcases hr with rfl | ⟨r, rfl⟩
      · exact ⟨[], by rw [List.append_nil]; exact splitByte_clean c6⟩
      · exact ⟨_, splitByte_append c6⟩
    obtain ⟨ps, e6⟩ := e6
    unfold decode
    rw [splitByte_append c1, splitByte_append c2, splitByte_append c3, splitByte_append c4, splitByte_append c5, e6]
    obtain ⟨xt, xp, xr, xn, xs, xm⟩ := x
    simp only [Out.ok.injEq, TP.mk.injEq, true_and] at hm ⊢
    cases xm <;> simp_all

theorem fields_unique {h : Str} {x y : TP} (hx : Fields h x) (hy : Fields h y) : x = y := by
  have h1 := decode_iff.2 hx
  rw [decode_iff.2 hy] at h1
  cases h1; rfl

theorem encode_eq (x : TP) : encode x = x.principal ++ 95 :: (x.role ++ 95 :: (x.tenant ++ 95 :: (x.namespace_ ++ 95 ::
    (x.scope ++ 95 :: ((if x.manage then str "true" else str "false") ++ []))))) := by
  unfold encode; rw [str_underscore]; simp

theorem flag_clean (b : Bool) : NoUnderscore (if b then str "true" else str "false") := by
  cases b
  · exact clean_false
  · exact clean_true

theorem fields_encode {x : TP} (c : Clean x) : Fields (encode x) x :=
  ⟨_, [], c, flag_clean _, by cases x.manage <;> decide, .inl rfl, encode_eq x⟩

/-- Cutting a text with at least `k` separators gives more than `k` pieces. -/
theorem splitByte_length {c : UInt8} (s : Str) : (splitByte c s).length = s.count c + 1 := by
  induction s with
  | nil => rfl
  | cons a s ih =>
    rw [splitByte]
    split
    · rename_i e; subst e; simp [ih]
    · rename_i e
      rw [List.count_cons_of_ne e]
      split
      · rename_i e2; exact absurd e2 splitByte_ne_nil
      · rename_i q qs e2; rw [e2] at ih; simpa using ih

theorem decode_encode_total (x : TP) : ∃ y, decode (encode x) = .ok y := by
  have hl := splitByte_length (c := 95) (encode x)
  have hc : 5 ≤ (encode x).count 95 := by
    rw [encode_eq]; simp only [List.count_append, List.count_cons_self]; omega
  unfold decode
  match h : splitByte 95 (encode x), hl with
  | [], hl | [_], hl | [_, _], hl | [_, _, _], hl | [_, _, _, _], hl | [_, _, _, _, _], hl =>
    simp at hl <;> omega
  | p :: r :: t :: n :: s :: f :: rest, _ => exact ⟨_, rfl⟩

/-! ### The representation invariant -/

structure TOK (w : V1) (t : T1Obj) : Prop where
  nsWF : GoMap.WF t.namespaces
  rolesWF : GoMap.WF t.roles
  scopesWF : GoMap.WF t.scopes
  descWF : GoMap.WF t.desc
  namespaces : ∀ e ∈ t.namespaces, ∃ no, w.nsobjs[e.2]? = some no ∧ no.id = e.1
  roles : ∀ e ∈ t.roles, ∃ ro, w.heap.roles[e.2]? = some ro ∧ ro.id = e.1
  desc : ∀ e ∈ t.desc, ∃ d, w.tobjs[e.2]? = some d ∧ d.id = e.1
  defNs : ∀ a, t.defNs = some a → ∃ k, (k, a) ∈ t.namespaces

structure NOK (w : V1) (no : NsObj) : Prop where
  rolesWF : GoMap.WF no.roles
  scopesWF : GoMap.WF no.scopes
  roles : ∀ e ∈ no.roles, ∃ ro, w.heap.roles[e.2]? = some ro ∧ ro.id = e.1

structure Inv (w : V1) : Prop where
  heap : Spec.RHeap.OK w.heap
  tenantsWF : GoMap.WF w.tenants
  rolesWF : GoMap.WF w.roles
  tenants : ∀ k a, w.tenants.get k = some a → ∃ t, w.tobjs[a]? = some t ∧ t.id = k
  roles : ∀ k a, w.roles.get k = some a → ∃ ro, w.heap.roles[a]? = some ro ∧ ro.id = k
  groups : ∀ k a, w.attrGroups.get k = some a → ∃ g, w.heap.groups[a]? = some g ∧ g.id = k
  tobjs : ∀ t ∈ w.tobjs, TOK w t
  nsobjs : ∀ no ∈ w.nsobjs, NOK w no
  tps : ∀ h, h ∈ w.tps ↔ ∃ x ∈ w.log, encode x = h
  tpsNodup : w.tps.Nodup

theorem Inv.empty : Inv {} := by
  refine ⟨Spec.RHeap.OK.empty, GoMap.wf_nil, GoMap.wf_nil, ?_, ?_, ?_, ?_, ?_, ?_, ?_⟩ <;> simp

/-- The tenant kept its id, manager, roles, namespaces and scopes. -/
structure TExt (x y : T1Obj) : Prop where
  id : y.id = x.id
  managed : x.managed = true → y.managed = true
  roles : ∀ k, In x.roles k → In y.roles k
  namespaces : ∀ k, In x.namespaces k → In y.namespaces k
  scopes : ∀ k, In x.scopes k → In y.scopes k

theorem TExt.refl (x : T1Obj) : TExt x x := ⟨rfl, fun h => h, fun _ h => h, fun _ h => h, fun _ h => h⟩

theorem TExt.trans {x y z : T1Obj} (a : TExt x y) (b : TExt y z) : TExt x z :=
  ⟨b.id.trans a.id, fun h => b.managed (a.managed h), fun k h => b.roles k (a.roles k h),
    fun k h => b.namespaces k (a.namespaces k h), fun k h => b.scopes k (a.scopes k h)⟩

/-- Objects keep their address and id, tenants what they have, and no assignment is removed. -/
structure Ext (w w' : V1) : Prop where
  log : ∃ L, w'.log = w.log ++ L
  heap : HGrow w.heap w'.heap
  ns : ∀ (a : Nat) (x : NsObj), w.nsobjs[a]? = some x → ∃ y : NsObj, w'.nsobjs[a]? = some y ∧ y.id = x.id
  ts : ∀ (a : Nat) (x : T1Obj), w.tobjs[a]? = some x → ∃ y : T1Obj, w'.tobjs[a]? = some y ∧ TExt x y

theorem Ext.refl (w : V1) : Ext w w :=
  ⟨⟨[], by simp⟩, .refl _, fun _ x h => ⟨x, h, rfl⟩, fun _ x h => ⟨x, h, .refl _⟩⟩

theorem Ext.trans {a b c : V1} (h1 : Ext a b) (h2 : Ext b c) : Ext a c := by
  obtain ⟨L, hL⟩ := h1.log
  obtain ⟨M, hM⟩ := h2.log
  refine ⟨⟨L ++ M, by rw [hM, hL, List.append_assoc]⟩, h1.heap.trans h2.heap, fun i x hx => ?_, fun i x hx => ?_⟩
  · obtain ⟨y, e1, e2⟩ := h1.ns i x hx
    obtain ⟨z, e3, e4⟩ := h2.ns i y e1
    exact ⟨z, e3, e4.trans e2⟩
  · obtain ⟨y, e1, e2⟩ := h1.ts i x hx
    obtain ⟨z, e3, e4⟩ := h2.ts i y e1
    exact ⟨z, e3, e2.trans e4⟩

theorem TOK.ext {t : T1Obj} (h : TOK w t) (e : Ext w w') : TOK w' t := by
  refine ⟨h.nsWF, h.rolesWF, h.scopesWF, h.descWF, fun x hx => ?_, fun x hx => ?_, fun x hx => ?_, h.defNs⟩
  · obtain ⟨y, e1, e2⟩ := h.namespaces x hx
    obtain ⟨z, e3, e4⟩ := e.ns _ y e1
    exact ⟨z, e3, e4.trans e2⟩
  · obtain ⟨y, e1, e2⟩ := h.roles x hx
    obtain ⟨z, e3, e4⟩ := e.heap.ext.roles _ y e1
    exact ⟨z, e3, e4.trans e2⟩
  · obtain ⟨y, e1, e2⟩ := h.desc x hx
    obtain ⟨z, e3, e4⟩ := e.ts _ y e1
    exact ⟨z, e3, e4.id.trans e2⟩

theorem NOK.ext {no : NsObj} (h : NOK w no) (e : Ext w w') : NOK w' no := by
  refine ⟨h.rolesWF, h.scopesWF, fun x hx => ?_⟩
  obtain ⟨y, e1, e2⟩ := h.roles x hx
  obtain ⟨z, e3, e4⟩ := e.heap.ext.roles _ y e1
  exact ⟨z, e3, e4.trans e2⟩

/-- Rebuild the invariant after objects were added or changed in place. -/
theorem Inv.ext (inv : Inv w) (e : Ext w w') (hh : Spec.RHeap.OK w'.heap)
    (ht : ∀ t ∈ w'.tobjs, t ∈ w.tobjs ∨ TOK w' t) (hn : ∀ no ∈ w'.nsobjs, no ∈ w.nsobjs ∨ NOK w' no)
    (r1 : w'.tenants = w.tenants) (r2 : w'.roles = w.roles) (r3 : w'.attrGroups = w.attrGroups)
    (r4 : w'.tps = w.tps) (r5 : w'.log = w.log) : Inv w' := by
  refine ⟨hh, r1 ▸ inv.tenantsWF, r2 ▸ inv.rolesWF, fun k a h => ?_, fun k a h => ?_, fun k a h => ?_, fun t h => ?_,
    fun n h => ?_, by rw [r4, r5]; exact inv.tps, r4 ▸ inv.tpsNodup⟩
  · rw [r1] at h
    obtain ⟨y, e1, e2⟩ := inv.tenants k a h
    obtain ⟨z, e4, e5⟩ := e.ts _ y e1
    exact ⟨z, e4, e5.id.trans e2⟩
  · rw [r2] at h
    obtain ⟨y, e1, e2⟩ := inv.roles k a h
    obtain ⟨z, e3, e4⟩ := e.heap.ext.roles _ y e1
    exact ⟨z, e3, e4.trans e2⟩
  · rw [r3] at h
    obtain ⟨y, e1, e2⟩ := inv.groups k a h
    obtain ⟨z, e3, e4⟩ := e.heap.ext.groups _ y e1
    exact ⟨z, e3, e4.trans e2⟩
  · rcases ht t h with h | h
    · exact (inv.tobjs t h).ext e
    · exact h
  · rcases hn n h with h | h
    · exact (inv.nsobjs n h).ext e
    · exact h

theorem Ext.ofHeap {h : RHeap} (he : HGrow w.heap h) : Ext w { w with heap := h } :=
  ⟨⟨[], by simp⟩, he, fun _ x h => ⟨x, h, rfl⟩, fun _ x h => ⟨x, h, .refl _⟩⟩

theorem Inv.setHeap (inv : Inv w) {h : RHeap} (he : HGrow w.heap h) (hh : Spec.RHeap.OK h) :
    Inv { w with heap := h } :=
  inv.ext (.ofHeap he) hh (fun _ h => .inl h) (fun _ h => .inl h) rfl rfl rfl rfl rfl

theorem mem_of_get {α : Type} {l : List α} {i : Nat} {x : α} (h : l[i]? = some x) : x ∈ l := List.mem_of_getElem? h

theorem Ext.newTenant (w : V1) (id : Str) : Ext w (w.newTenant id) :=
  ⟨⟨[], by simp [V1.newTenant]⟩, .refl _, fun _ x h => ⟨x, h, rfl⟩,
    fun _ x h => ⟨x, by rw [V1.newTenant, get_append_lt (RHeap.lt_of_get h)]; exact h, .refl _⟩⟩

theorem Inv.newTenant (inv : Inv w) (id : Str) : Inv (w.newTenant id) := by
  refine inv.ext (.newTenant w id) inv.heap (fun t h => ?_) (fun _ h => .inl h) rfl rfl rfl rfl rfl
  rcases List.mem_append.1 h with h | h
  · exact .inl h
  · rw [List.mem_singleton] at h; subst h
    exact .inr ⟨GoMap.wf_nil, GoMap.wf_nil, GoMap.wf_nil, GoMap.wf_nil, by simp, by simp, by simp, by simp⟩

theorem Ext.newNamespace (w : V1) (id : Str) : Ext w (w.newNamespace id) :=
  ⟨⟨[], by simp [V1.newNamespace]⟩, .refl _,
    fun _ x h => ⟨x, by rw [V1.newNamespace, get_append_lt (RHeap.lt_of_get h)]; exact h, rfl⟩,
    fun _ x h => ⟨x, h, .refl _⟩⟩

theorem Inv.newNamespace (inv : Inv w) (id : Str) : Inv (w.newNamespace id) := by
  refine inv.ext (.newNamespace w id) inv.heap (fun _ h => .inl h) (fun t h => ?_) rfl rfl rfl rfl rfl
  rcases List.mem_append.1 h with h | h
  · exact .inl h
  · rw [List.mem_singleton] at h; subst h
    exact .inr ⟨GoMap.wf_nil, GoMap.wf_nil, by simp⟩

theorem Ext.setT {c : Nat} {t t' : T1Obj} (hc : w.tobjs[c]? = some t) (he : TExt t t') : Ext w (w.setT c t') := by
  refine ⟨⟨[], by simp [V1.setT]⟩, .refl _, fun _ x h => ⟨x, h, rfl⟩, fun a x h => ?_⟩
  unfold V1.setT
  by_cases e : c = a
  · subst e
    rw [hc] at h; cases h
    exact ⟨t', by rw [List.getElem?_set_self (RHeap.lt_of_get hc)], he⟩
  · exact ⟨x, by rw [List.getElem?_set_ne e]; exact h, .refl _⟩

theorem Inv.setT (inv : Inv w) {c : Nat} {t t' : T1Obj} (hc : w.tobjs[c]? = some t) (he : TExt t t')
    (hok : TOK w t') : Inv (w.setT c t') := by
  refine inv.ext (.setT hc he) inv.heap (fun x h => ?_) (fun _ h => .inl h) rfl rfl rfl rfl rfl
  rcases List.mem_or_eq_of_mem_set h with h | rfl
  · exact .inl h
  · exact .inr (hok.ext (.setT hc he))

theorem Ext.setNs {a : Nat} {no no' : NsObj} (ha : w.nsobjs[a]? = some no) (hid : no'.id = no.id) :
    Ext w (w.setNs a no') :=
  ⟨⟨[], by simp [V1.setNs]⟩, .refl _, fun i x h => get_set_id (id := NsObj.id) ha hid i x h, fun _ x h => ⟨x, h, .refl _⟩⟩

theorem Inv.setNs (inv : Inv w) {a : Nat} {no no' : NsObj} (ha : w.nsobjs[a]? = some no) (hid : no'.id = no.id)
    (hok : NOK w no') : Inv (w.setNs a no') := by
  refine inv.ext (.setNs ha hid) inv.heap (fun _ h => .inl h) (fun x h => ?_) rfl rfl rfl rfl rfl
  rcases List.mem_or_eq_of_mem_set h with h | rfl
  · exact .inl h
  · exact .inr (hok.ext (.setNs ha hid))

theorem Ext.store (w : V1) (x : TP) : Ext w (w.store x) :=
  ⟨⟨[x], rfl⟩, .refl _, fun _ x h => ⟨x, h, rfl⟩, fun _ x h => ⟨x, h, .refl _⟩⟩

theorem mem_store {x : TP} {h : Str} : h ∈ (w.store x).tps ↔ h ∈ w.tps ∨ encode x = h := by
  unfold V1.store
  simp only
  split
  · rename_i e
    exact ⟨.inl, fun k => k.elim (fun k => k) (fun k => k ▸ e)⟩
  · simp [eq_comm]

theorem Inv.store (inv : Inv w) (x : TP) : Inv (w.store x) := by
  refine ⟨inv.heap, inv.tenantsWF, inv.rolesWF, inv.tenants, inv.roles, inv.groups,
    fun t h => (inv.tobjs t h).ext (.store w x), fun n h => (inv.nsobjs n h).ext (.store w x), fun h => ?_, ?_⟩
  · rw [mem_store, inv.tps]
    simp only [V1.store, List.mem_append, List.mem_singleton]
    constructor
    · rintro (⟨y, hy, e⟩ | e)
      · exact ⟨y, .inl hy, e⟩
      · exact ⟨x, .inr rfl, e⟩
    · rintro ⟨y, hy | rfl, e⟩
      · exact .inl ⟨y, hy, e⟩
      · exact .inr e
  · unfold V1.store
    simp only
    split
    · exact inv.tpsNodup
    · rename_i hn
      rw [List.nodup_append]
      refine ⟨inv.tpsNodup, by simp, ?_⟩
      intro a ha b hb e
      rw [List.mem_singleton] at hb
      subst hb; subst e; exact hn ha

theorem withT_eq_ok {α : Type} {c : Nat} {f : T1Obj → Out α} {x : α} :
    w.withT c f = .ok x ↔ ∃ t, w.tobjs[c]? = some t ∧ f t = .ok x := by
  unfold withT
  cases w.tobjs[c]? <;> simp

theorem setAbsent_get {m : GoMap Str Nat} {k k' : Str} {v : Nat} :
    (setAbsent m k v).get k' = if k = k' then some ((m.get k).getD v) else m.get k' := by
  unfold setAbsent
  cases h : m.get k with
  | some x =>
    by_cases e : k = k'
    · subst e; simp [h]
    · simp [e]
  | none => simp

theorem setAbsent_wf {m : GoMap Str Nat} {k : Str} {v : Nat} (wf : GoMap.WF m) : GoMap.WF (setAbsent m k v) := by
  unfold setAbsent
  split
  · exact wf
  · exact GoMap.wf_set wf _ _

theorem mem_setAbsent {m : GoMap Str Nat} {k : Str} {v : Nat} {e : Str × Nat} (wf : GoMap.WF m) :
    e ∈ setAbsent m k v ↔ e ∈ m ∨ (m.get k = none ∧ e = (k, v)) := by
  unfold setAbsent
  cases h : m.get k with
  | some x => simp
  | none =>
    simp only [true_and]
    rw [GoMap.mem_set_iff wf]
    constructor
    · rintro (h | ⟨_, h⟩)
      · exact .inr h
      · exact .inl h
    · rintro (h1 | h1)
      · refine .inr ⟨fun e2 => ?_, h1⟩
        obtain ⟨a, b⟩ := e
        simp only at e2; subst e2
        rw [GoMap.mem_iff_get wf, h] at h1; cases h1
      · exact .inl h1

theorem in_setAbsent {m : GoMap Str Nat} {k k' : Str} {v : Nat} (h : In m k') : In (setAbsent m k v) k' := by
  obtain ⟨x, hx⟩ := h
  have h1 : (m.get k').isSome = true := GoMap.get_isSome_iff.2 (List.mem_map.2 ⟨_, hx, rfl⟩)
  have h2 : ((setAbsent m k v).get k').isSome = true := by
    rw [setAbsent_get]; split <;> simp_all
  obtain ⟨y, hy⟩ := Option.isSome_iff_exists.1 h2
  exact ⟨y, GoMap.get_some_mem hy⟩

theorem in_iff {m : GoMap Str Nat} {k : Str} : (m.get k).isSome = true ↔ In m k := by
  rw [GoMap.get_isSome_iff]; simp [In]

theorem in_iff_not {m : GoMap Str Nat} {k : Str} : m.get k = none ↔ ¬ In m k := by
  rw [← in_iff]; cases m.get k <;> simp

end V1
end Verif
