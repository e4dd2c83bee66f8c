import Verif.Props.V1Repeat
import Verif.Props.V1Orders

/-!
# The order of grants (v1)
-/

namespace Verif
namespace Spec

/-- The calls that assign roles and scopes to principals. -/
def isGrant1 : V1Op → Bool
  | .addPrincipalRole .. | .tAddPrincipalRole .. | .tAddPrincipal .. | .tAddPrincipalInNamespace .. | .tAssignScopesToPrincipal ..
  | .tAssignScopesWithRole .. => true
  | _ => false

/-- What the call assigns does not depend on assignments made later than in `w`: it names the roles, or only needs the principal
to have some assignment in the tenant, and that is so in `w`. -/
def NamesAll (w : V1) : V1Op → Prop
  | .addPrincipalRole .. | .tAddPrincipalRole .. | .tAddPrincipal .. => True
  | .tAddPrincipalInNamespace _ _ _ _ _ rs => rs ≠ []
  | .tAssignScopesWithRole _ _ c p _ _ => ∀ t, w.tobjs[c]? = some t → ∃ x, Row w x ∧ x.principal = p ∧ x.tenant = t.id
  | _ => False

/-- The principal a grant is for. -/
def grantee : V1Op → Str
  | .addPrincipalRole p .. | .tAddPrincipalRole _ p .. | .tAddPrincipal _ p .. | .tAddPrincipalInNamespace _ _ _ p ..
  | .tAssignScopesToPrincipal _ _ _ p .. | .tAssignScopesWithRole _ _ _ p .. => p
  | _ => []

end Spec

open Spec V1

namespace GrantOrder1
variable {w0 : V1} {q : Str}

/-- What `f` stores is for `q` and does not depend on what was stored after `w0`. -/
def Det (w0 : V1) (q : Str) (f : V1 → Out V1) : Prop :=
  ∀ L0 v, f (w0.stores L0) = .ok v → ∃ L : List TP, (∀ x ∈ L, x.principal = q) ∧ ∀ M, f (w0.stores M) = .ok ((w0.stores M).stores L)

theorem Det.ok : Det w0 q .ok := fun _ _ _ => ⟨[], nofun, fun _ => rfl⟩

theorem Det.panic : Det w0 q fun _ => .panic := fun _ _ h => nomatch h

theorem Det.bind {f g : V1 → Out V1} (hf : Det w0 q f) (hg : Det w0 q g) : Det w0 q fun w => (f w).bind g := by
  intro L0 v h
  obtain ⟨u, h1, h2⟩ := Out.bind_eq_ok.1 h
  obtain ⟨L, pL, hL⟩ := hf L0 u h1
  rw [hL L0] at h1; cases h1
  rw [← stores_append] at h2
  obtain ⟨L', pL', hL'⟩ := hg _ v h2
  refine ⟨L ++ L', fun x hx => (List.mem_append.1 hx).elim (pL x) (pL' x), fun M => Out.bind_eq_ok.2 ⟨_, hL M, ?_⟩⟩
  rw [← stores_append, hL']; simp only [stores_append]

theorem Det.loop {α : Type} {f : V1 → α → Out V1} (hf : ∀ x, Det w0 q fun w => f w x) (xs : List α) : Det w0 q fun w => Out.loop f w xs := by
  induction xs with
  | nil => exact .ok
  | cons x xs ih => exact (hf x).bind ih

theorem Det.withT {c : Nat} {f : V1 → T1Obj → Out V1} (hf : ∀ t, w0.tobjs[c]? = some t → Det w0 q fun w => f w t) :
    Det w0 q fun w => w.withT c (f w) := by
  intro L0 v h
  obtain ⟨t, ht, h1⟩ := withT_eq_ok.1 h
  rw [stores_tobjs] at ht
  obtain ⟨L, pL, hL⟩ := hf t ht L0 v h1
  exact ⟨L, pL, fun M => withT_eq_ok.2 ⟨t, by rw [stores_tobjs]; exact ht, hL M⟩⟩

theorem Det.ite {p : Prop} [Decidable p] {f g : V1 → Out V1} (hf : Det w0 q f) (hg : Det w0 q g) : Det w0 q fun w => if p then f w else g w := by
  by_cases h : p
  · simpa only [if_pos h] using hf
  · simpa only [if_neg h] using hg

theorem det_apr (p r : Str) (c : Nat) (ns : Option Nat) (sc : Option Str) (m : List Bool) : Det w0 p fun w => w.addPrincipalRole p r c ns sc m := by
  intro L0 v h
  dsimp only [V1.addPrincipalRole] at h ⊢
  simp only [stores_tobjs, stores_nsID] at h ⊢
  cases ht : w0.tobjs[c]? with
  | none => rw [ht] at h; cases h
  | some t =>
    simp only [ht] at h ⊢
    obtain ⟨n, hn, _⟩ := Out.map_eq_ok.1 h
    refine ⟨[_], fun x hx => ?_, fun M => by rw [hn]; rfl⟩
    rw [List.mem_singleton.1 hx]

theorem det_tapr (c : Nat) (p r : Str) (d : Nat) (ns : Option Nat) (sc : Option Str) (m : List Bool) :
    Det w0 p fun w => w.tAddPrincipalRole c p r d ns sc m :=
  Det.withT fun _ _ => Det.ite (det_apr p r d ns sc m) .panic

theorem det_def (c : Nat) (t : T1Obj) (p r : Str) (sc : Option Str) : Det w0 p fun w => w.addWithDefault c t p r sc := by
  refine Det.bind (det_tapr c p r c none sc []) ?_
  cases t.defNs with
  | none => exact .ok
  | some a => exact det_tapr c p r c (some a) sc []

theorem det_withRole (inv : Inv w0) (o : Ord) (site : List Val) (c : Nat) (p r : Str) (ss : List Str)
    (hr : ∀ t, w0.tobjs[c]? = some t → ∃ x, Row w0 x ∧ x.principal = p ∧ x.tenant = t.id) :
    Det w0 p fun w => w.tAssignScopesWithRole o site c p r ss := by
  refine Det.ite .ok (Det.withT fun t ht => Det.ite ?_ .panic)
  obtain ⟨x, hx, hp, hx2⟩ := hr t ht
  have K : Det w0 p fun w => if (t.roles.get r).isSome then
      Out.loop (fun w s => if (t.scopes.get s).isSome then w.addWithDefault c t p r (some s) else .ok w) w ss else .ok w :=
    Det.ite (Det.loop (fun s => Det.ite (det_def c t p r (some s)) .ok) ss) .ok
  have e : ∀ M, ∃ l, (w0.stores M).principalRoles o site t.id p = .ok l ∧ l ≠ [] := fun M => by
    obtain ⟨l, hl⟩ := principalRoles_total (Good.stores w0 M inv).1 o site t.id p
    refine ⟨l, hl, fun e => ?_⟩
    have : x ∈ l := (principalRoles_mem hl x).2 (by
      obtain ⟨k, hk, hf⟩ := hx
      exact ⟨⟨k, mem_stores.2 (.inl hk), hf⟩, hp, hx2⟩)
    rw [e] at this; cases this
  have e' : ∀ M, ((w0.stores M).principalRoles o site t.id p).bind (fun l => if l = [] then .ok (w0.stores M) else
      if (t.roles.get r).isSome then
      Out.loop (fun w s => if (t.scopes.get s).isSome then w.addWithDefault c t p r (some s) else .ok w) (w0.stores M) ss else .ok (w0.stores M)) =
      if (t.roles.get r).isSome then
      Out.loop (fun w s => if (t.scopes.get s).isSome then w.addWithDefault c t p r (some s) else .ok w) (w0.stores M) ss else .ok (w0.stores M) := fun M => by
    obtain ⟨l, h1, h2⟩ := e M
    rw [h1, Out.bind_ok, if_neg h2]
  intro L0 v h
  dsimp only at h ⊢
  rw [e'] at h
  simp only [e']
  exact K L0 v h

theorem det_op (inv : Inv w0) {op : V1Op} (hn : NamesAll w0 op) : Det w0 (grantee op) op.apply := by
  cases op with
  | addPrincipalRole p r c ns sc m => exact det_apr p r c ns sc m
  | tAddPrincipalRole c p r d ns sc m => exact det_tapr c p r d ns sc m
  | tAddPrincipal c p rs => exact Det.withT fun t _ => Det.loop (fun r => Det.ite (det_def c t p r none) .ok) rs
  | tAddPrincipalInNamespace o site c p n rs =>
    refine Det.withT fun t _ => ?_
    cases t.namespaces.get n with
    | none => exact .ok
    | some a =>
      have : 0 < rs.length := List.length_pos_of_ne_nil hn
      simp only [if_pos this]
      refine Det.loop (fun r => ?_) rs
      cases t.roles.get r with
      | none => exact .ok
      | some ra =>
        intro L0 v h
        dsimp only at h ⊢
        simp only [stores_heap] at h ⊢
        cases hro : w0.heap.roles[ra]? with
        | none => rw [hro] at h; cases h
        | some ro =>
          simp only [hro] at h ⊢
          exact det_tapr c p ro.id c (some a) none [] L0 v h
  | tAssignScopesWithRole o site c p r ss => exact det_withRole inv o site c p r ss hn
  | _ => exact hn.elim

theorem all_det (inv : Inv w0) : ∀ (gs : List V1Op) (L0 : List TP) {v : V1}, (∀ g ∈ gs, NamesAll w0 g) → V1Op.run (w0.stores L0) gs = .ok v →
    ∀ g ∈ gs, ∃ L, ∀ M, g.apply (w0.stores M) = .ok ((w0.stores M).stores L) := by
  intro gs
  induction gs with
  | nil => intro _ _ _ _ g hg; cases hg
  | cons op gs ih =>
    intro L0 v hn h g hg
    obtain ⟨u, h1, h2⟩ := Out.bind_eq_ok.1 h
    obtain ⟨L, _, hL⟩ := det_op inv (hn op (List.mem_cons_self ..)) L0 u h1
    rcases List.mem_cons.1 hg with rfl | hg
    · exact ⟨L, hL⟩
    · rw [show op.apply (w0.stores L0) = _ from hL L0, ← stores_append] at h1
      cases h1
      exact ih _ (fun g hg => hn g (List.mem_cons_of_mem _ hg)) h2 g hg

theorem run_det {R : V1Op → List TP} : ∀ (gs : List V1Op) (L0 : List TP),
    (∀ g ∈ gs, ∀ M, g.apply (w0.stores M) = .ok ((w0.stores M).stores (R g))) → V1Op.run (w0.stores L0) gs = .ok (w0.stores (L0 ++ gs.flatMap R)) := by
  intro gs
  induction gs with
  | nil => intro L0 _; simp [V1Op.run]
  | cons g gs ih =>
    intro L0 h
    show (g.apply (w0.stores L0)).bind _ = _
    rw [h g (List.mem_cons_self ..) L0, Out.bind_ok, ← stores_append, ih _ fun x hx => h x (List.mem_cons_of_mem _ hx)]
    simp [List.append_assoc]

/-- The two states have the same assignments of `q`. -/
def Alike (q : Str) (w v : V1) : Prop := ∀ x : TP, x.principal = q → (Row w x ↔ Row v x)

/-- What `f` stores is for `q` and depends, as a set, only on the assignments of `q`. -/
def Dep (w0 : V1) (q : Str) (f : V1 → Out V1) : Prop :=
  ∀ M N u, Alike q (w0.stores M) (w0.stores N) → f (w0.stores M) = .ok u → ∃ L L' : List TP, u = (w0.stores M).stores L ∧
    f (w0.stores N) = .ok ((w0.stores N).stores L') ∧ (∀ x, x ∈ L ↔ x ∈ L') ∧ ∀ x ∈ L, x.principal = q

theorem Det.dep {f : V1 → Out V1} (h : Det w0 q f) : Dep w0 q f := by
  intro M N u _ hu
  obtain ⟨L, pL, hL⟩ := h M u hu
  exact ⟨L, L, Out.ok.inj (hu.symm.trans (hL M)), hL N, fun _ => .rfl, pL⟩

theorem mem_withDefault {t : T1Obj} {d : Option Str} {p r : Str} {sc : Option Str} {x : TP} (h : x ∈ withDefault t d p r sc) : x.principal = p := by
  unfold withDefault at h
  cases d with
  | none => rw [List.mem_singleton.1 h]; rfl
  | some n =>
    rcases List.mem_cons.1 h with rfl | h
    · rfl
    · rw [List.mem_singleton.1 h]; rfl

theorem pr_congr {w v : V1} {o : Ord} {site : List Val} {T : Str} {l m : List TP} (a : Alike q w v) (hl : w.principalRoles o site T q = .ok l)
    (hm : v.principalRoles o site T q = .ok m) (x : TP) : x ∈ l ↔ x ∈ m := by
  rw [principalRoles_mem hl, principalRoles_mem hm]
  exact ⟨fun ⟨h1, h2, h3⟩ => ⟨(a x h2).1 h1, h2, h3⟩, fun ⟨h1, h2, h3⟩ => ⟨(a x h2).2 h1, h2, h3⟩⟩

theorem dep_scopes (inv : Inv w0) (o : Ord) (site : List Val) (c : Nat) (p : Str) (ss : List Str) :
    Dep w0 p fun w => w.tAssignScopesToPrincipal o site c p ss := by
  intro M N u a h
  have h' := h
  obtain ⟨t, ht, h1⟩ := withT_eq_ok.1 h
  have hm : t.managed = true := by
    by_cases hm : t.managed = true
    · exact hm
    · rw [if_neg hm] at h1; cases h1
  have htN : (w0.stores N).tobjs[c]? = some t := by simpa using ht
  obtain ⟨v, hv⟩ := tAssignScopesToPrincipal_total (Good.stores w0 N inv).1 htN hm o site p ss
  obtain ⟨l, hl, e1⟩ := tAssignScopesToPrincipal_eq ht h'
  obtain ⟨m, hm', e2⟩ := tAssignScopesToPrincipal_eq htN hv
  have e := pr_congr a hl hm'
  rw [e2] at hv
  refine ⟨_, _, e1, hv, fun x => ?_, fun x hx => ?_⟩
  · rw [stores_defId, stores_defId]
    by_cases h0 : l = []
    · rw [if_pos h0, if_pos ((nil_congr e).1 h0)]
    · rw [if_neg h0, if_neg (fun h => h0 ((nil_congr e).2 h)), List.mem_flatMap, List.mem_flatMap]
      refine exists_congr fun k => and_congr Iff.rfl ?_
      split
      · rw [List.mem_append, List.mem_append, mem_flatMap_congr e]
      · exact Iff.rfl
  · split at hx
    · cases hx
    · obtain ⟨s, _, hx⟩ := List.mem_flatMap.1 hx
      split at hx
      · rcases List.mem_append.1 hx with hx | hx
        · obtain ⟨y, _, hx⟩ := List.mem_flatMap.1 hx
          exact mem_withDefault hx
        · rw [List.mem_singleton.1 hx]; rfl
      · cases hx

theorem dep_withRole (inv : Inv w0) (o : Ord) (site : List Val) (c : Nat) (p r : Str) (ss : List Str) :
    Dep w0 p fun w => w.tAssignScopesWithRole o site c p r ss := by
  by_cases hs : ss.length = 0
  · simp only [V1.tAssignScopesWithRole, if_pos hs]
    exact Det.ok.dep
  intro M N u a h
  have h' := h
  simp only [V1.tAssignScopesWithRole, if_neg hs] at h
  obtain ⟨t, ht, h1⟩ := withT_eq_ok.1 h
  have hm : t.managed = true := by
    by_cases hm : t.managed = true
    · exact hm
    · rw [if_neg hm] at h1; cases h1
  have htN : (w0.stores N).tobjs[c]? = some t := by simpa using ht
  obtain ⟨v, hv⟩ := tAssignScopesWithRole_total (Good.stores w0 N inv).1 htN hm o site p r ss
  obtain ⟨L, e1, k1⟩ := tAssignScopesWithRole_eq ht h'
  obtain ⟨L', e2, k2⟩ := tAssignScopesWithRole_eq htN hv
  rw [e2] at hv
  rcases k1 with ⟨h0, _⟩ | ⟨l, hl, k1⟩
  · exact absurd (by rw [h0]; rfl) hs
  rcases k2 with ⟨h0, _⟩ | ⟨m, hm', k2⟩
  · exact absurd (by rw [h0]; rfl) hs
  have e := pr_congr a hl hm'
  have hLL : L = L' := by
    rw [k1, k2, stores_defId, stores_defId]
    by_cases h0 : l = []
    · rw [if_neg (fun h => h.1 h0), if_neg (fun h => h.1 ((nil_congr e).1 h0))]
    · have h1 : ¬ m = [] := fun h => h0 ((nil_congr e).2 h)
      simp only [ne_eq, h0, h1, not_false_eq_true, true_and]
  refine ⟨L, L', e1, hv, fun x => by rw [hLL], fun x hx => ?_⟩
  rw [k1] at hx
  split at hx
  · obtain ⟨s, _, hx⟩ := List.mem_flatMap.1 hx
    split at hx
    · exact mem_withDefault hx
    · cases hx
  · cases hx

theorem dep_inNamespace (inv : Inv w0) (o : Ord) (site : List Val) (c : Nat) (p n : Str) :
    Dep w0 p fun w => w.tAddPrincipalInNamespace o site c p n [] := by
  intro M N u a h
  have h' := h
  obtain ⟨t, ht, h1⟩ := withT_eq_ok.1 h
  have htN : (w0.stores N).tobjs[c]? = some t := by simpa using ht
  cases hn : t.namespaces.get n with
  | none =>
    rw [hn] at h1
    cases h1
    exact ⟨[], [], rfl, by simp only [V1.tAddPrincipalInNamespace, V1.withT, htN, hn]; rfl, fun _ => .rfl, nofun⟩
  | some b =>
    have hm : t.managed = true := by
      by_cases hm : t.managed = true
      · exact hm
      · rw [hn] at h1
        simp only [List.length_nil, Nat.lt_irrefl, if_false, if_neg hm] at h1
        cases h1
    obtain ⟨v, hv⟩ := tAddPrincipalInNamespace_copy_total (Good.stores w0 N inv).1 htN hm o site p n
    rcases tAddPrincipalInNamespace_eq (Good.stores w0 M inv).1 ht h' with ⟨k1, _⟩ | ⟨_, k1, _⟩ | ⟨_, _, l, hl, e1⟩
    · rw [hn] at k1; cases k1
    · exact absurd rfl k1
    rcases tAddPrincipalInNamespace_eq (Good.stores w0 N inv).1 htN hv with ⟨k1, _⟩ | ⟨_, k1, _⟩ | ⟨_, _, m, hm', e2⟩
    · rw [hn] at k1; cases k1
    · exact absurd rfl k1
    rw [e2] at hv
    have key : ∀ x, x.principal = p → (x ∈ l ↔ x ∈ m) := fun x hx => by
      rw [tenantRoles_mem hl, tenantRoles_mem hm', a x hx]
    refine ⟨_, _, e1, hv, fun x => ?_, fun x hx => ?_⟩
    · simp only [List.mem_append, List.mem_flatMap]
      refine or_congr (exists_congr fun y => ?_) .rfl
      by_cases hy : y.principal = p
      · rw [key y hy]
      · rw [if_neg fun h => hy h.1]; simp
    · rcases List.mem_append.1 hx with hx | hx
      · obtain ⟨y, _, hx⟩ := List.mem_flatMap.1 hx
        split at hx
        · rw [List.mem_singleton.1 hx]; rfl
        · cases hx
      · rw [List.mem_singleton.1 hx]; rfl

theorem dep_op (inv : Inv w0) {op : V1Op} (hg : isGrant1 op = true) : Dep w0 (grantee op) op.apply := by
  cases op with
  | tAddPrincipalInNamespace o site c p n rs =>
    by_cases hr : rs = []
    · subst hr; exact dep_inNamespace inv o site c p n
    · exact (det_op inv (op := .tAddPrincipalInNamespace o site c p n rs) hr).dep
  | tAssignScopesToPrincipal o site c p ss => exact dep_scopes inv o site c p ss
  | tAssignScopesWithRole o site c p r ss => exact dep_withRole inv o site c p r ss
  | addPrincipalRole p r c ns sc m => exact (det_op inv (op := .addPrincipalRole p r c ns sc m) trivial).dep
  | tAddPrincipalRole c p r d ns sc m => exact (det_op inv (op := .tAddPrincipalRole c p r d ns sc m) trivial).dep
  | tAddPrincipal c p rs => exact (det_op inv (op := .tAddPrincipal c p rs) trivial).dep
  | _ => cases hg

theorem cut {a b x y : Str} (ha : NoUnderscore a) (hb : NoUnderscore b) (h : a ++ 95 :: x = b ++ 95 :: y) : a = b := by
  induction a generalizing b with
  | nil =>
    cases b with
    | nil => rfl
    | cons c b => exact absurd (List.mem_cons.2 (.inl (List.cons.inj h).1)) hb
  | cons c a ih =>
    cases b with
    | nil => exact absurd (List.mem_cons.2 (.inl (List.cons.inj h).1.symm)) ha
    | cons d b =>
      obtain ⟨h1, h2⟩ := List.cons.inj h
      rw [h1, ih (fun h => ha (List.mem_cons_of_mem _ h)) (fun h => hb (List.mem_cons_of_mem _ h)) h2]

/-- Assignments of another principal whose id has no `_` are not read as ones of `q`. -/
theorem alike_stores {w : V1} {p : Str} {L : List TP} (hp : NoUnderscore p) (hne : p ≠ q) (hL : ∀ x ∈ L, x.principal = p) :
    Alike q w (w.stores L) := by
  intro x hx
  refine ⟨fun ⟨h, hh, f⟩ => ⟨h, mem_stores.2 (.inl hh), f⟩, fun ⟨h, hh, f⟩ => ?_⟩
  rcases mem_stores.1 hh with hh | ⟨y, hy, e⟩
  · exact ⟨h, hh, f⟩
  · obtain ⟨_, _, c, _, _, _, e2⟩ := f
    rw [← e, encode_eq] at e2
    have e3 := cut (by rw [hL y hy]; exact hp) c.1 e2
    exact absurd ((hL y hy).symm.trans (e3.trans hx)) hne

theorem swap {w v : V1} (inv : Inv w) {g h : V1Op} (hg : isGrant1 g = true) (hh : isGrant1 h = true) (cg : NoUnderscore (grantee g))
    (ch : NoUnderscore (grantee h)) (hne : grantee g ≠ grantee h) (r : V1Op.run w [g, h] = .ok v) :
    ∃ v', V1Op.run w [h, g] = .ok v' ∧ Same v v' := by
  obtain ⟨u, h1, r⟩ := Out.bind_eq_ok.1 r
  obtain ⟨v1, h2, h3⟩ := Out.bind_eq_ok.1 r
  cases h3
  obtain ⟨L1, _, e1, _, _, p1⟩ := dep_op inv hg [] [] u (fun _ _ => .rfl) h1
  rw [show w.stores [] = w from rfl] at e1
  subst e1
  obtain ⟨L2, L2', e2, k2, s2, p2⟩ := dep_op inv hh L1 [] v (fun x hx => (alike_stores cg hne p1 x hx).symm) h2
  rw [show w.stores [] = w from rfl] at k2
  have p2' : ∀ x ∈ L2', x.principal = grantee h := fun x hx => p2 x ((s2 x).2 hx)
  obtain ⟨L, L1', e3, k1, s1, _⟩ := dep_op inv hg [] L2' _ (alike_stores ch hne.symm p2') h1
  refine ⟨_, Out.bind_eq_ok.2 ⟨_, k2, Out.bind_eq_ok.2 ⟨_, k1, rfl⟩⟩, ?_⟩
  rw [show w.stores [] = w from rfl] at e3
  rw [e2, e3, ← stores_append, ← stores_append]
  refine (show Same w w from ⟨rfl, fun _ => .rfl⟩).stores fun x => ?_
  rw [List.mem_append, List.mem_append, s1, s2, or_comm]

/-- Grants for different principals are exchanged. -/
inductive Moved : List V1Op → List V1Op → Prop
  | refl (gs : List V1Op) : Moved gs gs
  | swap (g h : V1Op) (gs : List V1Op) : grantee g ≠ grantee h → Moved (g :: h :: gs) (h :: g :: gs)
  | cons (g : V1Op) {as bs : List V1Op} : Moved as bs → Moved (g :: as) (g :: bs)
  | trans {as bs cs : List V1Op} : Moved as bs → Moved bs cs → Moved as cs

theorem Moved.mem {as bs : List V1Op} (m : Moved as bs) (g : V1Op) : g ∈ as ↔ g ∈ bs := by
  induction m with
  | refl => exact .rfl
  | swap a b gs => simp only [List.mem_cons]; exact ⟨fun h => h.elim (.inr ∘ .inl) fun h => h.elim .inl (.inr ∘ .inr),
      fun h => h.elim (.inr ∘ .inl) fun h => h.elim .inl (.inr ∘ .inr)⟩
  | cons a _ ih => rw [List.mem_cons, List.mem_cons, ih]
  | trans _ _ h1 h2 => exact h1.trans h2

theorem move (g : V1Op) : ∀ (as bs : List V1Op), (∀ a ∈ as, grantee a ≠ grantee g) → Moved (g :: (as ++ bs)) (as ++ g :: bs)
  | [], _, _ => .refl _
  | a :: as, bs, h => .trans (.swap g a (as ++ bs) (h a (List.mem_cons_self ..)).symm)
      (.cons a (move g as bs fun x hx => h x (List.mem_cons_of_mem _ hx)))

theorem moved_of_filter : ∀ (as bs : List V1Op), (∀ q, as.filter (fun g => grantee g = q) = bs.filter fun g => grantee g = q) → Moved as bs := by
  intro as
  induction as with
  | nil =>
    intro bs h
    cases bs with
    | nil => exact .refl _
    | cons b bs => have := h (grantee b); simp at this
  | cons a as ih =>
    intro bs h
    have h1 := h (grantee a)
    rw [List.filter_cons_of_pos (by simp)] at h1
    obtain ⟨b1, b2, rfl, hb, _, _⟩ := List.filter_eq_cons_iff.1 h1.symm
    have hb' : ∀ x ∈ b1, grantee x ≠ grantee a := fun x hx e => hb x hx (by simpa using e)
    refine .trans (.cons a (ih (b1 ++ b2) fun q => ?_)) (move a b1 b2 hb')
    have h2 := h q
    by_cases e : grantee a = q
    · subst e
      have hn : b1.filter (fun g => decide (grantee g = grantee a)) = [] := List.filter_eq_nil_iff.2 fun x hx => by simpa using hb' x hx
      rw [List.filter_cons_of_pos (by simp), List.filter_append, hn, List.filter_cons_of_pos (by simp)] at h2
      rw [List.filter_append, hn]
      exact (List.cons.inj h2).2
    · rw [List.filter_cons_of_neg (by simpa using e), List.filter_append, List.filter_cons_of_neg (by simpa using e)] at h2
      rw [List.filter_append, h2]

theorem same_trans {a b c : V1} (s : Same a b) (t : Same b c) : Same a c := by
  refine ⟨?_, fun k => (s.tps k).trans (t.tps k)⟩
  have h1 := s.rest
  have h2 := t.rest
  generalize b.tps = T at *
  generalize b.log = L at *
  subst h1
  exact h2

theorem same_run : ∀ (gs : List V1Op) {w v w' : V1}, Inv w → Inv v → Same w v → V1Op.run w gs = .ok w' → ∃ v', V1Op.run v gs = .ok v' ∧ Same w' v'
  | [], _, _, _, _, _, s, h => by cases h; exact ⟨_, rfl, s⟩
  | g :: gs, w, v, w', iw, iv, s, h => by
    obtain ⟨u, h1, h2⟩ := Out.bind_eq_ok.1 h
    have k := C98_call (.refl g) iw iv s
    rw [h1] at k
    cases hv : g.apply v with
    | ok u' =>
      rw [hv] at k
      obtain ⟨v', h3, h4⟩ := same_run gs (V1Op.good h1 iw).1 (V1Op.good hv iv).1 k h2
      exact ⟨v', Out.bind_eq_ok.2 ⟨u', hv, h3⟩, h4⟩
    | panic => rw [hv] at k; exact k.elim
    | diverge => rw [hv] at k; exact k.elim

theorem moved {as bs : List V1Op} (m : Moved as bs) {w v : V1} (inv : Inv w) (hg : ∀ g ∈ as, isGrant1 g = true ∧ NoUnderscore (grantee g))
    (h : V1Op.run w as = .ok v) : ∃ v', V1Op.run w bs = .ok v' ∧ Same v v' := by
  induction m generalizing w v with
  | refl => exact ⟨v, h, rfl, fun _ => .rfl⟩
  | swap g k gs hne =>
    obtain ⟨u1, h1, h2⟩ := Out.bind_eq_ok.1 h
    obtain ⟨u2, h2, h3⟩ := Out.bind_eq_ok.1 h2
    have c1 := hg g (List.mem_cons_self ..)
    have c2 := hg k (List.mem_cons_of_mem _ (List.mem_cons_self ..))
    obtain ⟨v', h4, s⟩ := swap inv c1.1 c2.1 c1.2 c2.2 hne (Out.bind_eq_ok.2 ⟨u1, h1, Out.bind_eq_ok.2 ⟨u2, h2, rfl⟩⟩)
    obtain ⟨a1, k1, k2⟩ := Out.bind_eq_ok.1 h4
    obtain ⟨a2, k2, k3⟩ := Out.bind_eq_ok.1 k2
    cases k3
    obtain ⟨z, h5, s2⟩ := same_run gs (V1Op.good h2 (V1Op.good h1 inv).1).1 (V1Op.good k2 (V1Op.good k1 inv).1).1 s h3
    exact ⟨z, Out.bind_eq_ok.2 ⟨a1, k1, Out.bind_eq_ok.2 ⟨_, k2, h5⟩⟩, s2⟩
  | cons g _ ih =>
    obtain ⟨u1, h1, h2⟩ := Out.bind_eq_ok.1 h
    obtain ⟨v', h3, s⟩ := ih (V1Op.good h1 inv).1 (fun g hx => hg g (List.mem_cons_of_mem _ hx)) h2
    exact ⟨v', Out.bind_eq_ok.2 ⟨u1, h1, h3⟩, s⟩
  | trans m1 _ ih1 ih2 =>
    obtain ⟨v1, h1, s1⟩ := ih1 inv hg h
    obtain ⟨v2, h2, s2⟩ := ih2 inv (fun g hx => hg g ((m1.mem g).2 hx)) h1
    exact ⟨v2, h2, same_trans s1 s2⟩

theorem run_inv : ∀ (gs : List V1Op) {w v : V1}, Inv w → V1Op.run w gs = .ok v → Inv v
  | [], _, _, inv, h => by cases h; exact inv
  | _ :: gs, _, _, inv, h => by
    obtain ⟨u, h1, h2⟩ := Out.bind_eq_ok.1 h
    exact run_inv gs (V1Op.good h1 inv).1 h2

end GrantOrder1

namespace V1
open GrantOrder1

/-- C151 as intended: a block of grants made in another order leads to the same answers. -/
def C151_full : Prop := ∀ (ops gs gs' : List V1Op) (w v v' : V1) (o o' : Ord) (fuel fuel' : Nat) (site site' : List Val) (p : Str)
    (opts : List Opt) (b b' : Bool), V1Op.run {} ops = .ok w → (∀ g ∈ gs, isGrant1 g = true) → gs.Perm gs' →
  V1Op.run w gs = .ok v → V1Op.run w gs' = .ok v' → v.authorize o fuel site p opts = .ok b → v'.authorize o' fuel' site' p opts = .ok b' → b = b'

/-- C151, partial: a block of grants that do not go by assignments made in the block goes through in every order, stores the same
assignments, and leads to the same answers.  Missing: grants that copy the assignments a principal has. -/
theorem C151_partial {w v : V1} (inv : Inv w) {gs gs' : List V1Op} (hg : ∀ g ∈ gs, NamesAll w g) (hp : gs.Perm gs')
    (h : V1Op.run w gs = .ok v) :
    ∃ v', V1Op.run w gs' = .ok v' ∧ Same v v' ∧ (∀ x, Row v' x ↔ Row v x) ∧
      ∀ {o o' : Ord} {fuel fuel' : Nat} {site site' : List Val} {p : Str} {opts : List Opt} {b b' : Bool},
        v.authorize o fuel site p opts = .ok b → v'.authorize o' fuel' site' p opts = .ok b' → b = b' := by
  classical
  have key := all_det inv gs [] hg h
  let R : V1Op → List TP := fun g => if hx : ∃ L, ∀ M, g.apply (w.stores M) = .ok ((w.stores M).stores L) then Classical.choose hx else []
  have hR : ∀ g ∈ gs, ∀ M, g.apply (w.stores M) = .ok ((w.stores M).stores (R g)) := fun g hm => by
    have hx := key g hm
    simp only [R, dif_pos hx]
    exact Classical.choose_spec hx
  have h1 := run_det gs [] hR
  have h2 := run_det gs' [] fun g hm => hR g (hp.mem_iff.2 hm)
  simp only [List.nil_append] at h1 h2
  rw [show V1Op.run (w.stores []) gs = V1Op.run w gs from rfl, h] at h1
  cases h1
  have s : Same (w.stores (gs.flatMap R)) (w.stores (gs'.flatMap R)) :=
    (show Same w w from ⟨rfl, fun _ => .rfl⟩).stores fun x => (hp.flatMap_right R).mem_iff
  refine ⟨_, h2, s, fun x => by rw [s.rows], fun k1 k2 => C98_answers (Good.stores w _ inv).1 (Good.stores w _ inv).1 s k1 k2⟩

/-- C151, partial: whatever the grants, only the order of the grants for one principal matters, if the ids of the principals have
no `_`.  Missing: exchanges of grants for one principal, other than those of `C151_partial`. -/
theorem C151_others_partial {w v : V1} (inv : Inv w) {gs gs' : List V1Op} (hg : ∀ g ∈ gs, isGrant1 g = true ∧ NoUnderscore (grantee g))
    (hp : ∀ q, gs.filter (fun g => grantee g = q) = gs'.filter fun g => grantee g = q) (h : V1Op.run w gs = .ok v) :
    ∃ v', V1Op.run w gs' = .ok v' ∧ Same v v' ∧ (∀ x, Row v' x ↔ Row v x) ∧
      ∀ {o o' : Ord} {fuel fuel' : Nat} {site site' : List Val} {p : Str} {opts : List Opt} {b b' : Bool},
        v.authorize o fuel site p opts = .ok b → v'.authorize o' fuel' site' p opts = .ok b' → b = b' := by
  obtain ⟨v', h2, s⟩ := moved (moved_of_filter gs gs' hp) inv hg h
  exact ⟨v', h2, s, fun x => by rw [s.rows], fun k1 k2 => C98_answers (run_inv gs inv h) (run_inv gs' inv h2) s k1 k2⟩

/-- Tenant "t" has roles "r" and "q" and scope "s"; `p` is registered, nothing is assigned. -/
def exGo : List V1Op := (exOrders .fwd).take 10

/-- The last two calls of `exOrders`. -/
def exGoGs : List V1Op := [.tAddPrincipal 0 (str "p") [str "r", str "q"], .tAssignScopesToPrincipal .fwd [] 0 (str "p") [str "s"]]

/-- C151. `AssignScopesToPrincipal` before the first role of the principal assigns nothing; after it, the scope is assigned. -/
theorem C151_counterexample : ∃ w v v', V1Op.run {} exGo = .ok w ∧ V1Op.run w exGoGs = .ok v ∧ V1Op.run w exGoGs.reverse = .ok v' ∧
    v.authorize .fwd 9 [] (str "p") [.tenant (.str (str "t")), .scope (.str (str "s"))] = .ok true ∧
    v'.authorize .fwd 9 [] (str "p") [.tenant (.str (str "t")), .scope (.str (str "s"))] = .ok false := by
  obtain ⟨w, h1, h2, h3⟩ : ∃ w, V1Op.run {} exGo = .ok w ∧
      (V1Op.run w exGoGs).bind (fun v => v.authorize .fwd 9 [] (str "p") [.tenant (.str (str "t")), .scope (.str (str "s"))]) = .ok true ∧
      (V1Op.run w exGoGs.reverse).bind (fun v => v.authorize .fwd 9 [] (str "p") [.tenant (.str (str "t")), .scope (.str (str "s"))]) =
        .ok false := Out.chk_ok (by decide +kernel)
  obtain ⟨v, h4, h5⟩ := Out.bind_eq_ok.1 h2
  obtain ⟨v', h6, h7⟩ := Out.bind_eq_ok.1 h3
  exact ⟨w, v, v', h1, h4, h6, h5, h7⟩

theorem C151_full_false : ¬ C151_full := by
  intro hf
  obtain ⟨w, v, v', h1, h2, h3, h4, h5⟩ := C151_counterexample
  cases hf _ _ _ _ _ _ .fwd .fwd 9 9 [] [] _ _ _ _ h1 (fun g hg => by
    simp only [exGoGs, List.mem_cons, List.not_mem_nil, or_false] at hg
    rcases hg with rfl | rfl <;> rfl) (List.reverse_perm _).symm h2 h3 h4 h5

/-- Four grants; the last goes by the principal having some role in the tenant, which is so before the block. -/
def exGoPlain : List V1Op := [.tAddPrincipalRole 0 (str "p") (str "q") 0 none (some (str "s")) [],
  .addPrincipalRole (str "x") (str "q") 0 none none [false], .tAddPrincipal 0 (str "y") [str "q", str "zz"],
  .tAssignScopesWithRole .fwd [] 0 (str "p") (str "r") [str "s"]]

/-- C151_partial is not about nothing: the four grants are stored in another order when made in reverse, and the answers agree. -/
theorem C151_example : ∃ w v v', V1Op.run {} (exGo ++ [.tAddPrincipal 0 (str "p") [str "r"]]) = .ok w ∧ (∀ g ∈ exGoPlain, NamesAll w g) ∧
    V1Op.run w exGoPlain = .ok v ∧ V1Op.run w exGoPlain.reverse = .ok v' ∧ v.tps ≠ v'.tps ∧ v.tps.length = 5 ∧ Same v v' ∧
    w.authorize .fwd 9 [] (str "p") [.tenant (.str (str "t")), .scope (.str (str "s"))] = .ok false ∧
    v.authorize .fwd 9 [] (str "p") [.tenant (.str (str "t")), .scope (.str (str "s"))] = .ok true := by
  obtain ⟨w, h1, h2, h3, h4, h5, h6⟩ : ∃ w, V1Op.run {} (exGo ++ [.tAddPrincipal 0 (str "p") [str "r"]]) = .ok w ∧
      w.authorize .fwd 9 [] (str "p") [.tenant (.str (str "t")), .scope (.str (str "s"))] = .ok false ∧
      (V1Op.run w exGoPlain).bind (fun v => v.authorize .fwd 9 [] (str "p") [.tenant (.str (str "t")), .scope (.str (str "s"))]) = .ok true ∧
      (V1Op.run w exGoPlain).map (·.tps) ≠ (V1Op.run w exGoPlain.reverse).map (·.tps) ∧
      (V1Op.run w exGoPlain).map (·.tps.length) = .ok 5 ∧
      (str "p_r_t___true" ∈ w.tps ∧ w.tobjs.length = 1 ∧ w.tobjs[0]?.map (·.id) = some (str "t")) := Out.chk_ok (by decide +kernel)
  obtain ⟨v, h7, h8⟩ := Out.bind_eq_ok.1 h3
  have hn : ∀ g ∈ exGoPlain, NamesAll w g := by
    intro g hg
    simp only [exGoPlain, List.mem_cons, List.not_mem_nil, or_false] at hg
    rcases hg with rfl | rfl | rfl | rfl
    · trivial
    · trivial
    · trivial
    · intro t ht
      refine ⟨⟨str "t", str "p", str "r", [], [], true⟩, ⟨_, h6.1, ?_⟩, rfl, ?_⟩
      · exact decode_iff.1 (by decide +kernel)
      · have := h6.2.2
        rw [ht] at this
        exact (Option.some.inj this).symm
  obtain ⟨v', h9, s, _⟩ := C151_partial (V1Op.reachable_inv h1) hn (List.reverse_perm _).symm h7
  rw [h7, h9] at h4
  rw [h7] at h5
  exact ⟨w, v, v', h1, hn, h7, h9, fun e => h4 (by simp only [Out.map_ok, e]), by simpa using h5, s, h2, h8⟩

/-- Grants for two principals, one after the other. -/
def exGoTwo : List V1Op := exGoGs ++ [.tAddPrincipal 0 (str "y") [str "q"], .tAssignScopesToPrincipal .rev [] 0 (str "y") [str "s"]]

/-- The same grants, interleaved. -/
def exGoMixed : List V1Op := [.tAddPrincipal 0 (str "y") [str "q"], .tAddPrincipal 0 (str "p") [str "r", str "q"],
  .tAssignScopesToPrincipal .rev [] 0 (str "y") [str "s"], .tAssignScopesToPrincipal .fwd [] 0 (str "p") [str "s"]]

/-- C151_others_partial is not about nothing: interleaved, the grants are stored in another order, and the states are the same. -/
theorem C151_others_example : ∃ w v v', V1Op.run {} exGo = .ok w ∧ (∀ g ∈ exGoTwo, isGrant1 g = true ∧ NoUnderscore (grantee g)) ∧
    (∀ q, exGoTwo.filter (fun g => grantee g = q) = exGoMixed.filter fun g => grantee g = q) ∧
    V1Op.run w exGoTwo = .ok v ∧ V1Op.run w exGoMixed = .ok v' ∧ v.tps ≠ v'.tps ∧ v.tps.length = 8 ∧ Same v v' := by
  obtain ⟨w, h1, h2, h3, h4⟩ : ∃ w, V1Op.run {} exGo = .ok w ∧ (V1Op.run w exGoTwo).map (fun _ => ()) = .ok () ∧
      (V1Op.run w exGoTwo).map (·.tps) ≠ (V1Op.run w exGoMixed).map (·.tps) ∧
      (V1Op.run w exGoTwo).map (·.tps.length) = .ok 8 := Out.chk_ok (by decide +kernel)
  obtain ⟨v, h5, _⟩ := Out.map_eq_ok.1 h2
  have hn : ∀ g ∈ exGoTwo, isGrant1 g = true ∧ NoUnderscore (grantee g) := by
    intro g hg
    simp only [exGoTwo, exGoGs, List.cons_append, List.nil_append, List.mem_cons, List.not_mem_nil, or_false] at hg
    rcases hg with rfl | rfl | rfl | rfl <;> exact ⟨rfl, by unfold NoUnderscore; decide⟩
  have hf : ∀ q, exGoTwo.filter (fun g => grantee g = q) = exGoMixed.filter fun g => grantee g = q := by
    intro q
    have hpy : str "p" ≠ str "y" := by decide
    by_cases a : str "p" = q
    · subst a
      simp [exGoTwo, exGoGs, exGoMixed, List.filter, grantee, hpy.symm]
    · by_cases b : str "y" = q
      · subst b
        simp [exGoTwo, exGoGs, exGoMixed, List.filter, grantee, hpy]
      · simp [exGoTwo, exGoGs, exGoMixed, List.filter, grantee, a, b]
  obtain ⟨v', h6, s, _⟩ := C151_others_partial (V1Op.reachable_inv h1) hn hf h5
  rw [h5, h6] at h3
  rw [h5] at h4
  exact ⟨w, v, v', h1, hn, hf, h5, h6, fun e => h3 (by simp only [Out.map_ok, e]), by simpa using h4, s⟩

/-- C151. Ids with `_`: the assignment of role "t" to "p_x" is read as one of role "x" to "p", so here the order of grants for
different principals matters. -/
theorem C151_underscore : ∃ w v v', V1Op.run {} exGo = .ok w ∧
    V1Op.run w [.addPrincipalRole (str "p_x") (str "t") 0 none none [], .tAssignScopesToPrincipal .fwd [] 0 (str "p") [str "s"]] = .ok v ∧
    V1Op.run w [.tAssignScopesToPrincipal .fwd [] 0 (str "p") [str "s"], .addPrincipalRole (str "p_x") (str "t") 0 none none []] = .ok v' ∧
    v.authorize .fwd 9 [] (str "p") [.tenant (.str (str "t")), .scope (.str (str "s"))] = .ok true ∧
    v'.authorize .fwd 9 [] (str "p") [.tenant (.str (str "t")), .scope (.str (str "s"))] = .ok false := by
  obtain ⟨w, h1, h2, h3⟩ : ∃ w, V1Op.run {} exGo = .ok w ∧
      (V1Op.run w [.addPrincipalRole (str "p_x") (str "t") 0 none none [], .tAssignScopesToPrincipal .fwd [] 0 (str "p") [str "s"]]).bind
        (fun v => v.authorize .fwd 9 [] (str "p") [.tenant (.str (str "t")), .scope (.str (str "s"))]) = .ok true ∧
      (V1Op.run w [.tAssignScopesToPrincipal .fwd [] 0 (str "p") [str "s"], .addPrincipalRole (str "p_x") (str "t") 0 none none []]).bind
        (fun v => v.authorize .fwd 9 [] (str "p") [.tenant (.str (str "t")), .scope (.str (str "s"))]) = .ok false :=
    Out.chk_ok (by decide +kernel)
  obtain ⟨v, h4, h5⟩ := Out.bind_eq_ok.1 h2
  obtain ⟨v', h6, h7⟩ := Out.bind_eq_ok.1 h3
  exact ⟨w, v, v', h1, h4, h6, h5, h7⟩

end V1
end Verif
