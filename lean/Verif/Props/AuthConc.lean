import Verif.Props.Authorize
import Verif.Model.AuthConc

/-!
# `Authorize` called from several goroutines (C103, C104)
-/

namespace Verif
namespace AC
open Spec

/-- The decision of `Authorize` for the implicit tenants `I`, in terms of the rows, roles and registries. -/
def Allowed (w : Mgr) (p : Str) (r : Request) (I : List Str) : Prop :=
  (∃ x, (p, x) ∈ w.principals) ∧ I ≠ [] ∧ Resources w r ∧
    ∃ c, (c = r.tenant ∨ ∃ t ∈ I, c = .str t) ∧ Decides w p c r

theorem Allowed.congr {w : Mgr} {p : Str} {r : Request} {I J : List Str} (h : ∀ x, x ∈ I ↔ x ∈ J) :
    Allowed w p r I ↔ Allowed w p r J := by
  have key : ∀ {I J : List Str}, (∀ x, x ∈ I ↔ x ∈ J) → Allowed w p r I → Allowed w p r J := by
    rintro I J h ⟨a, b, c, d, e, f⟩
    obtain ⟨x, hx⟩ := List.exists_mem_of_ne_nil I b
    refine ⟨a, List.ne_nil_of_mem ((h x).1 hx), c, d, e.imp id ?_, f⟩
    rintro ⟨t, ht, e⟩; exact ⟨t, (h t).1 ht, e⟩
  exact ⟨key h, key fun x => (h x).symm⟩

theorem authorize_granted {w w' : Mgr} (inv : w.Inv) {o : Ord} {fuel : Nat} {site : List Val} {p : Str}
    {opts : List Opt} {b : Bool} {I : List Str} {w1 : Mgr} (hI : w.implicitTenants o fuel (site ++ [.int 0]) p = .ok (I, w1))
    (h : w.authorize o fuel site p opts = .ok (b, w')) : b = true ↔ Allowed w p (requestOf opts) I := by
  rw [authorize_exact inv h]
  rcases Mgr.authorize_inv h with ⟨_, _, hn⟩ | ⟨hp, J, hJ⟩
  · constructor
    · rintro ⟨⟨x, hx⟩, _⟩; rw [(GoMap.mem_iff_get inv.regP).1 hx] at hn; cases hn
    · rintro ⟨⟨x, hx⟩, _⟩; rw [(GoMap.mem_iff_get inv.regP).1 hx] at hn; cases hn
  · rw [hI] at hJ; cases hJ
    obtain ⟨_, _, c, _⟩ := Mgr.implicitTenants_inv inv hI
    unfold Allowed
    rw [c]
    simp

/-- The last part of `Authorize`. -/
theorem decideWith_spec {w : Mgr} (inv : w.Inv) {o : Ord} {fuel : Nat} {site : List Val} {p : Str} {r : Request}
    {I : List Str} {b : Bool} (hp : ∃ x, (p, x) ∈ w.principals) (h : decideWith w o fuel site p r I = .ok b) :
    b = true ↔ Allowed w p r I := by
  unfold decideWith at h
  unfold Allowed
  simp only [hp, true_and]
  split at h
  · rename_i hl
    cases h
    have hl' : I = [] := List.length_eq_zero_iff.1 hl
    simp [hl']
  · rename_i hl
    have hI : I ≠ [] := fun e => hl (by rw [e]; rfl)
    rw [Out.bind_eq_ok] at h
    obtain ⟨v, hv, h⟩ := h
    have sv := Mgr.validateResources_spec inv hv
    cases v with
    | false =>
      cases h
      simp only [Bool.false_eq_true, false_iff] at sv ⊢
      exact fun hx => sv hx.2.1
    | true =>
      have hres := sv.1 rfl
      simp only [Bool.not_true, Bool.false_eq_true, if_false, Out.bind_eq_ok] at h
      obtain ⟨b1, hb1, h⟩ := h
      have hc1 : r.tenant ≠ .nil ∨ r.tenant = .nil := (Classical.em _).symm
      have sb := Mgr.check_spec inv (r := r) (c := r.tenant) hc1 hb1
      cases b1 with
      | true =>
        cases h
        simp only [true_iff]
        exact ⟨hI, hres, r.tenant, .inl rfl, sb.1 rfl⟩
      | false =>
        simp only [Bool.false_eq_true, if_false] at h
        have hno : ¬ Decides w p r.tenant r := fun hx => absurd (sb.2 hx) (by simp)
        have sf := Mgr.fallback_spec inv (r := r) (c := r.tenant) (fun t ht hx => hno hx) h
        rw [sf]
        simp only [Ord.mem_ord]
        constructor
        · rintro ⟨t, ht, hd⟩; exact ⟨hI, hres, .str t, .inr ⟨t, ht, rfl⟩, hd⟩
        · rintro ⟨_, _, c, hc | ⟨t, ht, rfl⟩, hd⟩
          · exact absurd (hc ▸ hd) hno
          · exact ⟨t, ht, hd⟩

/-! ## Subtrees do not depend on the order, nor on the caches -/

theorem collectI_inv {f : Nat → α → Out (List β)} {xs : List α} {i : Nat} {r : List β}
    (h : Out.collectI f i xs = .ok r) : ∀ x ∈ xs, ∃ j ys, f j x = .ok ys := by
  induction xs generalizing i r with
  | nil => simp
  | cons x xs ih =>
    simp only [Out.collectI, Out.bind_eq_ok] at h
    obtain ⟨ys, h1, zs, h2, _⟩ := h
    intro y hy
    rcases List.mem_cons.1 hy with rfl | hy
    · exact ⟨i, ys, h1⟩
    · exact ih h2 y hy

theorem descendants_any {w : Mgr} {o : Ord} {n : Nat} {site : List Val} {c : Nat} {ds : List Str}
    (h : w.descendants o n site c = .ok ds) (o' : Ord) (site' : List Val) : ∃ ds', w.descendants o' n site' c = .ok ds' := by
  induction n generalizing site site' c ds with
  | zero => cases h
  | succ n ih =>
    rw [Mgr.descendants_succ] at h ⊢
    cases hr : w.tobjs[c]? with
    | none => rw [hr] at h; cases h
    | some t =>
      rw [hr] at h
      simp only at h ⊢
      apply Out.collectI_total
      intro j e he
      obtain ⟨j', ys, hy⟩ := collectI_inv h e (by simpa using he)
      obtain ⟨ds1, h1, _⟩ := Out.map_eq_ok.1 hy
      obtain ⟨ds2, h2⟩ := ih h1 (site' ++ [.int j])
      exact ⟨_, by rw [h2]; rfl⟩

theorem descendants_tobjs {w v : Mgr} (h : v.tobjs = w.tobjs) {o : Ord} {n : Nat} {site : List Val} {c : Nat} :
    v.descendants o n site c = w.descendants o n site c := by
  induction n generalizing site c with
  | zero => rfl
  | succ n ih => rw [Mgr.descendants_succ, Mgr.descendants_succ, h]; simp only [ih]

section
variable {w0 w w1 : Mgr} {fuel : Nat}

/-- What `TenantChildren(t)` returns while nothing but the caches changes. -/
def Kids (w0 : Mgr) (t x : Str) : Prop :=
  (∃ l, w0.hierarchy.get t = some l ∧ .str x ∈ l) ∨ (w0.hierarchy.get t = none ∧ Under w0 t x)

/-- `descendants` of the tenant registered under `t` returns. -/
def Ready (w0 : Mgr) (fuel : Nat) (t : Str) : Prop :=
  ∀ c, w0.tenants.get t = some c → ∀ o site, ∃ ds, w0.descendants o fuel site c = .ok ds

/-- A state reached from `w0` by filling caches. -/
structure Alike (w0 : Mgr) (fuel : Nat) (w : Mgr) : Prop where
  same : Mgr.SameBut w0 w
  keep : ∀ a l, w0.hierarchy.get a = some l → w.hierarchy.get a = some l
  new : ∀ a l, w.hierarchy.get a = some l → w0.hierarchy.get a = none →
    Ready w0 fuel a ∧ ∀ v, v ∈ l ↔ ∃ x, v = .str x ∧ Under w0 a x

theorem Alike.refl : Alike w0 fuel w0 := ⟨rfl, fun _ _ h => h, fun a l h h' => by rw [h] at h'; cases h'⟩

theorem Alike.tobjs (h : Alike w0 fuel w) : w.tobjs = w0.tobjs := by rw [h.same]
theorem Alike.tenants (h : Alike w0 fuel w) : w.tenants = w0.tenants := by rw [h.same]
theorem Alike.trie (h : Alike w0 fuel w) : w.trie = w0.trie := by rw [h.same]
theorem Alike.principals (h : Alike w0 fuel w) : w.principals = w0.principals := by rw [h.same]

theorem Alike.hit (h : Alike w0 fuel w) (inv : w0.Inv) {t : Str} {l : List Val} (hl : w.hierarchy.get t = some l) :
    (∀ v ∈ l, ∃ x, v = .str x) ∧ ∀ x, .str x ∈ l ↔ Kids w0 t x := by
  unfold Kids
  cases h0 : w0.hierarchy.get t with
  | some l' =>
    rw [h.keep t l' h0] at hl; cases hl
    refine ⟨fun v hv => (inv.hier t l h0 v hv).imp fun _ h => h.1, fun x => by simp⟩
  | none =>
    obtain ⟨_, h2⟩ := h.new t l hl h0
    refine ⟨fun v hv => ((h2 v).1 hv).imp fun _ h => h.1, fun x => ?_⟩
    rw [h2]; simp

theorem Alike.ready (h : Alike w0 fuel w) {t : Str} {l : List Val} (hl : w.hierarchy.get t = some l)
    (h0 : w0.hierarchy.get t = none) : Ready w0 fuel t := (h.new t l hl h0).1

theorem kids_none (h0 : w0.hierarchy.get t = none) (ht : w0.tenants.get t = none) (x : Str) : ¬ Kids w0 t x := by
  rintro (⟨l, h, _⟩ | ⟨_, c, hc, _⟩)
  · rw [h0] at h; cases h
  · rw [ht] at hc; cases hc

theorem ready_of {o : Ord} {site : List Val} {t : Str} {c : Nat} {ds : List Str} (ht : w0.tenants.get t = some c)
    (hd : w0.descendants o fuel site c = .ok ds) : Ready w0 fuel t := by
  intro c' hc'
  rw [ht] at hc'; cases hc'
  exact fun o' site' => descendants_any hd o' site'

theorem desc_under (inv : w0.Inv) {o : Ord} {site : List Val} {t : Str} {c : Nat} {ds : List Str} (ht : w0.tenants.get t = some c)
    (hd : w0.descendants o fuel site c = .ok ds) (x : Str) : x ∈ ds ↔ Under w0 t x := by
  rw [Mgr.descendants_mem inv hd]
  constructor
  · intro h; exact ⟨c, ht, h⟩
  · rintro ⟨c', hc', h⟩; rw [ht] at hc'; cases hc'; exact h

theorem Alike.fill (h : Alike w0 fuel w) {t : Str} {ds : List Str} (h0 : w0.hierarchy.get t = none) (hr : Ready w0 fuel t)
    (hds : ∀ x, x ∈ ds ↔ Under w0 t x) :
    Alike w0 fuel { w with hierarchy := w.hierarchy.set t (compact (ds.map Val.str)) } := by
  refine ⟨by unfold Mgr.SameBut; rw [h.same], ?_, ?_⟩
  · intro a l hl
    simp only [GoMap.get_set]
    split
    · rename_i e; subst e; rw [h0] at hl; cases hl
    · exact h.keep a l hl
  · intro a l hl ha
    simp only [GoMap.get_set] at hl
    split at hl
    · rename_i e; subst e
      cases hl
      refine ⟨hr, fun v => ?_⟩
      rw [(C12_compact _).2.1, List.mem_map]
      constructor
      · rintro ⟨x, hx, rfl⟩; exact ⟨x, rfl, (hds x).1 hx⟩
      · rintro ⟨x, rfl, hx⟩; exact ⟨x, (hds x).2 hx, rfl⟩
    · exact h.new a l hl ha

/-- A call made alone, at the same row. -/
theorem Alike.children (h : Alike w0 fuel w) (inv : w0.Inv) {t : Str} (hr : w0.hierarchy.get t = none → Ready w0 fuel t)
    (o : Ord) (site : List Val) :
    ∃ l w2, w.tenantChildren o fuel site t = .ok (l, w2) ∧ Alike w0 fuel w2 ∧ w2.pcache = w.pcache ∧
      (∀ v ∈ l, ∃ x, v = .str x) ∧ ∀ x, .str x ∈ l ↔ Kids w0 t x := by
  unfold Mgr.tenantChildren
  cases hh : w.hierarchy.get t with
  | some l =>
    obtain ⟨a, b⟩ := h.hit inv hh
    exact ⟨l, w, rfl, h, rfl, a, b⟩
  | none =>
    have h0 : w0.hierarchy.get t = none := by
      cases h0 : w0.hierarchy.get t with
      | none => rfl
      | some l => rw [h.keep t l h0] at hh; cases hh
    have et : w.tenants.get t = w0.tenants.get t := by rw [h.tenants]
    simp only
    cases ht' : w.tenants.get t with
    | none =>
      have ht : w0.tenants.get t = none := et ▸ ht'
      exact ⟨[], w, rfl, h, rfl, by simp, fun x => by simp [kids_none h0 ht x]⟩
    | some c =>
      have ht : w0.tenants.get t = some c := et ▸ ht'
      obtain ⟨ds, hds⟩ := hr h0 c ht o site
      simp only
      rw [descendants_tobjs h.tobjs, hds]
      refine ⟨_, _, rfl, h.fill h0 (hr h0) (desc_under inv ht hds), rfl, ?_, ?_⟩
      · intro v hv; obtain ⟨x, _, rfl⟩ := List.mem_map.1 hv; exact ⟨x, rfl⟩
      · intro x
        have := desc_under inv ht hds x
        simp only [List.mem_map, Val.str.injEq, exists_eq_right, this, Kids, h0, reduceCtorEq, false_and, exists_false,
          true_and, false_or]

end

/-! ## The invariant -/

/-- The rows `GetImplicitTenants` of a call ranges over. -/
def rowsOf (w : Mgr) (k : Call) : List Data :=
  w.search k.o (k.site ++ [.int 0] ++ [.int 0]) { principal := .str k.p } filterTenantsByPrincipal

/-- `E` is, as a set, what `GetImplicitTenants` returns to the call `d` when it is made alone. -/
def Solo (w0 : Mgr) (fuel : Nat) (d : Call) (E : List Str) : Prop :=
  ∃ I w', w0.implicitTenants d.o fuel (d.site ++ [.int 0]) d.p = .ok (I, w') ∧ ∀ x, x ∈ E ↔ x ∈ I

/-- The call, made alone, comes to the same place with the same set. -/
def LoopAt (w0 : Mgr) (fuel : Nat) (k : Call) (i : Nat) (rows : List Data) (E : List Str) : Prop :=
  ∃ E0 w1, Alike w0 fuel w1 ∧ w1.pcache = w0.pcache ∧ (∀ x, x ∈ E ↔ x ∈ E0) ∧
    Mgr.implicitLoop k.o fuel (k.site ++ [.int 0] ++ [.int 1]) 0 (rowsOf w0 k) [] w0 =
      Mgr.implicitLoop k.o fuel (k.site ++ [.int 0] ++ [.int 1]) i rows E0 w1

/-- `I` is the set of tenants some call for `p` gets when it is made alone. -/
def Known (w0 : Mgr) (fuel : Nat) (calls : List Call) (p : Str) (I : List Str) : Prop :=
  ∃ d ∈ calls, d.p = p ∧ Solo w0 fuel d I

def SpotOk (w0 : Mgr) (fuel : Nat) (calls : List Call) (k : Call) : Spot → Prop
  | .enter => True
  | .cache => ∃ x, (k.p, x) ∈ w0.principals
  | .loop i rows E => (∃ x, (k.p, x) ∈ w0.principals) ∧ w0.pcache.get k.p = none ∧ LoopAt w0 fuel k i rows E
  | .fill i rest E t ds => (∃ x, (k.p, x) ∈ w0.principals) ∧ w0.pcache.get k.p = none ∧
      w0.hierarchy.get t = none ∧ Ready w0 fuel t ∧ (∀ x, x ∈ ds ↔ Under w0 t x) ∧
      ∀ E', (∀ x, x ∈ E' ↔ x ∈ E ∨ Kids w0 t x) → LoopAt w0 fuel k i rest E'
  | .store E => (∃ x, (k.p, x) ∈ w0.principals) ∧ w0.pcache.get k.p = none ∧ Solo w0 fuel k E
  | .decide I => (∃ x, (k.p, x) ∈ w0.principals) ∧ Known w0 fuel calls k.p I

/-- The answer is right for a set of tenants some call for `p` gets when it is made alone. -/
def AnswerOk (w0 : Mgr) (fuel : Nat) (calls : List Call) (k : Call) (b : Bool) : Prop :=
  ((∀ x, (k.p, x) ∉ w0.principals) ∧ b = false) ∨
  ∃ I, Known w0 fuel calls k.p I ∧ (b = true ↔ Allowed w0 k.p (requestOf k.opts) I)

structure Ok (w0 : Mgr) (fuel : Nat) (calls : List Call) (w : Mgr) : Prop where
  inv : w.Inv
  alike : Alike w0 fuel w
  keep : ∀ p I, w0.pcache.get p = some I → w.pcache.get p = some I
  new : ∀ p I, w.pcache.get p = some I → w0.pcache.get p = none → Known w0 fuel calls p I

theorem LoopAt.skip {w0 : Mgr} {fuel : Nat} {k : Call} {i : Nat} {row : Data} {rest : List Data} {E : List Str} {t : Str}
    (h : LoopAt w0 fuel k i (row :: rest) E) (ht : row.tenant = .str t) (hE : t ∈ E) : LoopAt w0 fuel k (i + 1) rest E := by
  obtain ⟨E0, w1, a, b, c, d⟩ := h
  refine ⟨E0, w1, a, b, c, ?_⟩
  rw [d, Mgr.implicitLoop]
  simp only [ht, if_pos ((c t).1 hE)]

theorem LoopAt.plain {w0 : Mgr} {fuel : Nat} {k : Call} {i : Nat} {row : Data} {rest : List Data} {E : List Str} {t : Str}
    (h : LoopAt w0 fuel k i (row :: rest) E) (ht : row.tenant = .str t) (hE : t ∉ E) (hm : row.manage ≠ .bool true) :
    LoopAt w0 fuel k (i + 1) rest (E ++ [t]) := by
  obtain ⟨E0, w1, a, b, c, d⟩ := h
  refine ⟨E0 ++ [t], w1, a, b, fun x => by simp [c x], ?_⟩
  rw [d, Mgr.implicitLoop]
  simp only [ht, if_neg (fun h => hE ((c t).2 h)), if_neg hm]

theorem LoopAt.manage {w0 : Mgr} (inv : w0.Inv) {fuel : Nat} {k : Call} {i : Nat} {row : Data} {rest : List Data}
    {E E' : List Str} {t : Str} (h : LoopAt w0 fuel k i (row :: rest) E) (ht : row.tenant = .str t) (hE : t ∉ E)
    (hm : row.manage = .bool true) (hr : w0.hierarchy.get t = none → Ready w0 fuel t)
    (hE' : ∀ x, x ∈ E' ↔ x ∈ E ++ [t] ∨ Kids w0 t x) : LoopAt w0 fuel k (i + 1) rest E' := by
  obtain ⟨E0, w1, a, b, c, d⟩ := h
  obtain ⟨l, w2, h1, h2, h3, h4, h5⟩ := a.children inv hr k.o (k.site ++ [.int 0] ++ [.int 1] ++ [.int i])
  obtain ⟨E1, h6⟩ := Mgr.addDescs_total (E := E0 ++ [t]) h4
  refine ⟨E1, w2, h2, by rw [h3, b], ?_, ?_⟩
  · intro x
    rw [hE', Mgr.addDescs_spec h4 h6, h5]
    simp [c x]
  · rw [d, Mgr.implicitLoop]
    simp only [ht, if_neg (fun h => hE ((c t).2 h)), if_pos hm, h1, Out.bind_ok, h6]

/-- One step of a call keeps the invariant. -/
theorem step1_ok {w0 : Mgr} (inv : w0.Inv) {fuel : Nat} {calls : List Call} {w w' : Mgr} {k : Call} (hk : k ∈ calls) {s : Spot}
    {r : Spot ⊕ Bool} (ok : Ok w0 fuel calls w) (hs : SpotOk w0 fuel calls k s) (h : step1 fuel w k s = .ok (w', r)) :
    Ok w0 fuel calls w' ∧ match r with
      | .inl s' => SpotOk w0 fuel calls k s'
      | .inr b => AnswerOk w0 fuel calls k b := by
  cases s with
  | enter =>
    rw [step1] at h
    split at h
    · rename_i hn
      cases h
      refine ⟨ok, .inl ⟨fun x hx => ?_, rfl⟩⟩
      rw [ok.alike.principals, (GoMap.mem_iff_get inv.regP).1 hx] at hn; cases hn
    · rename_i hn
      cases h
      refine ⟨ok, ?_⟩
      rw [ok.alike.principals] at hn
      cases hg : w0.principals.get k.p with
      | none => rw [hg] at hn; simp at hn
      | some x => exact ⟨x, GoMap.get_some_mem hg⟩
  | cache =>
    rw [step1] at h
    have solo : ∀ I, w0.pcache.get k.p = some I → Known w0 fuel calls k.p I := by
      intro I hI
      refine ⟨k, hk, rfl, I, w0, ?_, fun x => .rfl⟩
      unfold Mgr.implicitTenants; rw [hI]
    split at h
    · rename_i I hI
      cases h
      refine ⟨ok, hs, ?_⟩
      cases h0 : w0.pcache.get k.p with
      | none => exact ok.new _ _ hI h0
      | some J => rw [ok.keep _ _ h0] at hI; cases hI; exact solo _ h0
    · rename_i hI
      cases h
      have h0 : w0.pcache.get k.p = none := by
        cases h0 : w0.pcache.get k.p with
        | none => rfl
        | some J => rw [ok.keep _ _ h0] at hI; cases hI
      refine ⟨ok, hs, h0, [], w0, .refl, rfl, fun x => .rfl, ?_⟩
      unfold rowsOf Mgr.search
      rw [ok.alike.trie]
  | loop i rows E =>
    obtain ⟨hp, h0, hl⟩ := hs
    cases rows with
    | nil =>
      rw [step1] at h
      cases h
      refine ⟨ok, hp, h0, ?_⟩
      obtain ⟨E0, w1, a, b, c, d⟩ := hl
      rw [Mgr.implicitLoop] at d
      refine ⟨E0, { w1 with pcache := w1.pcache.set k.p E0 }, ?_, c⟩
      unfold Mgr.implicitTenants
      rw [h0]
      simp only
      unfold rowsOf at d
      rw [d]; rfl
    | cons row rest =>
      rw [step1] at h
      split at h
      · rename_i t ht
        split at h
        · rename_i hE
          cases h
          exact ⟨ok, hp, h0, hl.skip ht hE⟩
        · rename_i hE
          split at h
          · rename_i hm
            split at h
            · rename_i l hh
              obtain ⟨E', h1, h2⟩ := Out.map_eq_ok.1 h
              cases h2
              obtain ⟨a, b⟩ := ok.alike.hit inv hh
              refine ⟨ok, hp, h0, hl.manage inv ht hE hm (ok.alike.ready hh) ?_⟩
              intro x; rw [Mgr.addDescs_spec a h1, b]
            · rename_i hh
              have hh0 : w0.hierarchy.get t = none := by
                cases e : w0.hierarchy.get t with
                | none => rfl
                | some l => rw [ok.alike.keep t l e] at hh; cases hh
              split at h
              · rename_i hT
                rw [ok.alike.tenants] at hT
                cases h
                refine ⟨ok, hp, h0, hl.manage inv ht hE hm ?_ ?_⟩
                · intro _ c hc; rw [hT] at hc; cases hc
                · intro x; simp [kids_none hh0 hT x]
              · rename_i c hT
                rw [ok.alike.tenants] at hT
                obtain ⟨ds, h1, h2⟩ := Out.map_eq_ok.1 h
                cases h2
                rw [descendants_tobjs ok.alike.tobjs] at h1
                refine ⟨ok, hp, h0, hh0, ready_of hT h1, desc_under inv hT h1, ?_⟩
                intro E' hE'
                exact hl.manage inv ht hE hm (fun _ => ready_of hT h1) hE'
          · rename_i hm
            cases h
            exact ⟨ok, hp, h0, hl.plain ht hE hm⟩
      · cases h
  | fill i rest E t ds =>
    obtain ⟨hp, h0, a, b, c, d⟩ := hs
    rw [step1] at h
    obtain ⟨E', h1, h2⟩ := Out.map_eq_ok.1 h
    cases h2
    have hu : ∀ a x, Under w a x ↔ Under w0 a x := by
      intro a x
      have : ∀ {u v : Mgr}, u.tenants = v.tenants → u.tobjs = v.tobjs → Under u a x → Under v a x := by
        rintro u v e1 e2 ⟨c, hc, hb⟩
        exact ⟨c, e1 ▸ hc, e2 ▸ hb⟩
      exact ⟨this ok.alike.tenants ok.alike.tobjs, this ok.alike.tenants.symm ok.alike.tobjs.symm⟩
    have al := ok.alike.fill a b c
    refine ⟨⟨ok.inv.setHier ?_, al, ok.keep, ok.new⟩, hp, h0, d E' ?_⟩
    · intro q l hl v hv
      obtain ⟨x1, x2⟩ := al.hit inv hl
      obtain ⟨x, rfl⟩ := x1 v hv
      refine ⟨x, rfl, (hu q x).2 ?_⟩
      rcases (x2 x).1 hv with ⟨l', h', hx⟩ | ⟨_, hx⟩
      · obtain ⟨y, e, hy⟩ := inv.hier q l' h' _ hx; cases e; exact hy
      · exact hx
    · intro x
      rw [Mgr.addDescs_spec (by simp) h1]
      simp [Kids, a, c x]
  | store E =>
    obtain ⟨hp, h0, hE⟩ := hs
    rw [step1] at h
    cases h
    have kn : Known w0 fuel calls k.p E := ⟨k, hk, rfl, hE⟩
    refine ⟨⟨?_, ⟨?_, ok.alike.keep, ok.alike.new⟩, ?_, ?_⟩, hp, kn⟩
    · refine { ok.inv with hier := ok.inv.hier, pc := ?_ }
      intro q J hq x hx
      simp only [GoMap.get_set] at hq
      split at hq
      · rename_i e; subst e
        cases hq
        obtain ⟨I, w', h1, h2⟩ := hE
        obtain ⟨i1, s1, c1, _⟩ := Mgr.implicitTenants_inv inv h1
        obtain ⟨row, r1, r2, t, r3, r4⟩ := i1.pc k.p I c1 x ((h2 x).1 hx)
        have e1 : w.log = w'.log := by rw [ok.alike.same, s1]
        have e2 : w.tenants = w'.tenants := by rw [ok.alike.same, s1]
        have e3 : w.tobjs = w'.tobjs := by rw [ok.alike.same, s1]
        refine ⟨row, by simp only; rw [e1]; exact r1, r2, t, r3, r4.imp id fun h => ⟨h.1, ?_⟩⟩
        obtain ⟨c, hc, hb⟩ := h.2
        exact ⟨c, by simp only; rw [e2]; exact hc, by simp only; rw [e3]; exact hb⟩
      · exact ok.inv.pc q J hq x hx
    · have := ok.alike.same
      unfold Mgr.SameBut at *
      rw [this]
    · intro q J hq
      simp only [GoMap.get_set]
      split
      · rename_i e; subst e; rw [h0] at hq; cases hq
      · exact ok.keep q J hq
    · intro q J hq hn
      simp only [GoMap.get_set] at hq
      split at hq
      · rename_i e; subst e; cases hq; exact kn
      · exact ok.new q J hq hn
  | decide I =>
    obtain ⟨hp, hI⟩ := hs
    rw [step1] at h
    obtain ⟨b, h1, h2⟩ := Out.map_eq_ok.1 h
    cases h2
    refine ⟨ok, .inr ⟨I, hI, ?_⟩⟩
    rw [decideWith_spec ok.inv (by rw [ok.alike.principals]; exact hp) h1]
    unfold Allowed
    have s : Mgr.SameBut w0 w := ok.alike.same
    rw [resources_same s, ok.alike.principals]
    simp only [decides_same s]
    rfl

/-! ## Runs -/

/-- The kinds of steps. -/
theorem step_cases {fuel : Nat} {c c' : Conf} {i : Nat} (e : c.step fuel i = some c') :
    c' = c ∨ ∃ t t', c.ts[i]? = some t ∧ c'.ts = c.ts.set i t' ∧
      ((∃ k rest, t.cur = none ∧ t.todo = k :: rest ∧ c'.w = c.w ∧ t' = { t with cur := some (k, .enter), todo := rest }) ∨
       (∃ k s s', t.cur = some (k, s) ∧ step1 fuel c.w k s = .ok (c'.w, .inl s') ∧ t' = { t with cur := some (k, s') }) ∨
       (∃ k s b, t.cur = some (k, s) ∧ step1 fuel c.w k s = .ok (c'.w, .inr b) ∧
          t' = { t with cur := none, out := t.out ++ [(k, b)] })) := by
  unfold Conf.step at e
  split at e
  · cases e; exact .inl rfl
  · rename_i t ht
    split at e
    · rename_i hc
      split at e
      · cases e; exact .inl rfl
      · rename_i k rest hr
        cases e
        exact .inr ⟨t, _, ht, rfl, .inl ⟨k, rest, hc, hr, rfl, rfl⟩⟩
    · rename_i k s hc
      split at e
      · rename_i w s' hs
        cases e
        exact .inr ⟨t, _, ht, rfl, .inr (.inl ⟨k, s, s', hc, hs, rfl⟩)⟩
      · rename_i w b hs
        cases e
        exact .inr ⟨t, _, ht, rfl, .inr (.inr ⟨k, s, b, hc, hs, rfl⟩)⟩
      · cases e

structure ConfOk (w0 : Mgr) (fuel : Nat) (calls : List Call) (c : Conf) : Prop where
  mgr : Ok w0 fuel calls c.w
  todo : ∀ t ∈ c.ts, ∀ k ∈ t.todo, k ∈ calls
  cur : ∀ t ∈ c.ts, ∀ k s, t.cur = some (k, s) → k ∈ calls ∧ SpotOk w0 fuel calls k s
  out : ∀ t ∈ c.ts, ∀ k b, (k, b) ∈ t.out → k ∈ calls ∧ AnswerOk w0 fuel calls k b

theorem mem_ts {l : List Thread} {i : Nat} {t' u : Thread} (hu : u ∈ l.set i t') : u = t' ∨ u ∈ l := by
  rcases List.mem_or_eq_of_mem_set hu with h | h
  · exact Or.inr h
  · exact Or.inl h

theorem confOk_step {w0 : Mgr} (inv : w0.Inv) {fuel : Nat} {calls : List Call} {c c' : Conf} {i : Nat}
    (v : ConfOk w0 fuel calls c) (e : c.step fuel i = some c') : ConfOk w0 fuel calls c' := by
  rcases step_cases e with rfl | ⟨t, t', ht, hts, hk⟩
  · exact v
  have hm : t ∈ c.ts := List.mem_of_getElem? ht
  rcases hk with ⟨k, rest, h1, h2, h3, rfl⟩ | ⟨k, s, s', h1, h2, rfl⟩ | ⟨k, s, b, h1, h2, rfl⟩
  · refine ⟨h3 ▸ v.mgr, ?_, ?_, ?_⟩
    · intro u hu q hq
      rcases mem_ts (hts ▸ hu) with rfl | hu
      · exact v.todo t hm q (by rw [h2]; exact List.mem_cons_of_mem _ hq)
      · exact v.todo u hu q hq
    · intro u hu q s hq
      rcases mem_ts (hts ▸ hu) with rfl | hu
      · cases hq; exact ⟨v.todo t hm k (by simp [h2]), trivial⟩
      · exact v.cur u hu q s hq
    · intro u hu q b hq
      rcases mem_ts (hts ▸ hu) with rfl | hu
      · exact v.out t hm q b hq
      · exact v.out u hu q b hq
  · obtain ⟨hk, hs⟩ := v.cur t hm k s h1
    obtain ⟨a, b⟩ := step1_ok inv hk v.mgr hs h2
    refine ⟨a, ?_, ?_, ?_⟩
    · intro u hu q hq
      rcases mem_ts (hts ▸ hu) with rfl | hu
      · exact v.todo t hm q hq
      · exact v.todo u hu q hq
    · intro u hu q s hq
      rcases mem_ts (hts ▸ hu) with rfl | hu
      · cases hq; exact ⟨hk, b⟩
      · exact v.cur u hu q s hq
    · intro u hu q b hq
      rcases mem_ts (hts ▸ hu) with rfl | hu
      · exact v.out t hm q b hq
      · exact v.out u hu q b hq
  · obtain ⟨hk, hs⟩ := v.cur t hm k s h1
    obtain ⟨a, b'⟩ := step1_ok inv hk v.mgr hs h2
    refine ⟨a, ?_, ?_, ?_⟩
    · intro u hu q hq
      rcases mem_ts (hts ▸ hu) with rfl | hu
      · exact v.todo t hm q hq
      · exact v.todo u hu q hq
    · intro u hu q s hq
      rcases mem_ts (hts ▸ hu) with rfl | hu
      · cases hq
      · exact v.cur u hu q s hq
    · intro u hu q d hq
      rcases mem_ts (hts ▸ hu) with rfl | hu
      · rcases List.mem_append.1 hq with hq | hq
        · exact v.out t hm q d hq
        · cases List.mem_singleton.1 hq; exact ⟨hk, b'⟩
      · exact v.out u hu q d hq

theorem run_inv {fuel : Nat} {P : Conf → Prop} (hP : ∀ c c' i, P c → c.step fuel i = some c' → P c') :
    ∀ (is : List Nat) {c c' : Conf}, P c → c.run fuel is = some c' → P c' := by
  intro is
  induction is with
  | nil => intro c c' h e; cases e; exact h
  | cons i is ih =>
    intro c c' h e
    simp only [Conf.run, Option.bind_eq_some_iff] at e
    obtain ⟨c1, h1, h2⟩ := e
    exact ih (hP c c1 i h h1) h2

theorem confOk_start {w : Mgr} (inv : w.Inv) {fuel : Nat} {calls : List (List Call)} :
    ConfOk w fuel calls.flatten (Conf.start w calls) := by
  refine ⟨⟨inv, .refl, fun _ _ h => h, fun p I h h' => by rw [show w.pcache.get p = some I from h] at h'; cases h'⟩, ?_, ?_, ?_⟩
  · intro t ht k hk
    obtain ⟨l, hl, rfl⟩ := List.mem_map.1 ht
    exact List.mem_flatten.2 ⟨l, hl, hk⟩
  · intro t ht k s hk
    obtain ⟨l, hl, rfl⟩ := List.mem_map.1 ht
    cases hk
  · intro t ht k s hk
    obtain ⟨l, hl, rfl⟩ := List.mem_map.1 ht
    cases hk

/-- Every configuration reached. -/
theorem confOk_run {w : Mgr} (inv : w.Inv) {fuel : Nat} {calls : List (List Call)} {is : List Nat} {c : Conf}
    (h : (Conf.start w calls).run fuel is = some c) : ConfOk w fuel calls.flatten c :=
  run_inv (fun _ _ _ => confOk_step inv) is (confOk_start inv) h

/-- C103. However the goroutines are scheduled, every answer is right for the tenants that some call for the same
principal, among those made, gets when it is made alone before all of them: no call sees a cache half filled, or the
tenants of somebody else. -/
theorem C103_answers {w : Mgr} (inv : w.Inv) {fuel : Nat} {calls : List (List Call)} {is : List Nat} {c : Conf}
    (h : (Conf.start w calls).run fuel is = some c) {t : Thread} (ht : t ∈ c.ts) {k : Call} {b : Bool} (hk : (k, b) ∈ t.out) :
    k ∈ calls.flatten ∧
    (((∀ x, (k.p, x) ∉ w.principals) ∧ b = false) ∨
      ∃ d ∈ calls.flatten, d.p = k.p ∧ ∃ I w', w.implicitTenants d.o fuel (d.site ++ [.int 0]) k.p = .ok (I, w') ∧
        (b = true ↔ Allowed w k.p (requestOf k.opts) I)) := by
  obtain ⟨h1, h2⟩ := (confOk_run inv h).out t ht k b hk
  refine ⟨h1, h2.imp id ?_⟩
  rintro ⟨E, ⟨d, hd, hp, I, w', hI, hs⟩, hb⟩
  exact ⟨d, hd, hp, I, w', hp ▸ hI, hb.trans (Allowed.congr hs)⟩

/-- C103. In particular it is the answer of the same request, made alone, in the order some call met. -/
theorem C103_alone {w : Mgr} (inv : w.Inv) {fuel : Nat} {calls : List (List Call)} {is : List Nat} {c : Conf}
    (h : (Conf.start w calls).run fuel is = some c) {t : Thread} (ht : t ∈ c.ts) {k : Call} {b : Bool} (hk : (k, b) ∈ t.out) :
    ∃ d ∈ calls.flatten, d.p = k.p ∧
      ∀ b' w', w.authorize d.o fuel d.site k.p k.opts = .ok (b', w') → b' = b := by
  obtain ⟨h1, h2 | ⟨d, hd, hp, I, w', hI, hb⟩⟩ := C103_answers inv h ht hk
  · refine ⟨k, h1, rfl, fun b' w' hw => ?_⟩
    rw [C26_unknown_principal h2.1] at hw
    cases hw
    exact h2.2.symm
  · refine ⟨d, hd, hp, fun b' w'' hw => ?_⟩
    rw [Bool.eq_iff_iff, hb, authorize_granted inv hI hw]

/-- C103. The calls leave everything but the two caches as it was, what was cached stays cached, and the caches are good for
all that is proved of a manager used by one goroutine. -/
theorem C103_state {w : Mgr} (inv : w.Inv) {fuel : Nat} {calls : List (List Call)} {is : List Nat} {c : Conf}
    (h : (Conf.start w calls).run fuel is = some c) :
    c.w = { w with hierarchy := c.w.hierarchy, pcache := c.w.pcache } ∧ c.w.Inv ∧
    (∀ a l, w.hierarchy.get a = some l → c.w.hierarchy.get a = some l) ∧
    (∀ p I, w.pcache.get p = some I → c.w.pcache.get p = some I) ∧
    (∀ p I, c.w.pcache.get p = some I → w.pcache.get p = some I ∨ ∃ k ∈ calls.flatten, k.p = p) ∧
    (Mgr.HierFresh w → Mgr.HierFresh c.w) := by
  have v := (confOk_run inv h).mgr
  refine ⟨v.alike.same, v.inv, v.alike.keep, v.keep, ?_, ?_⟩
  · intro p I hI
    cases h0 : w.pcache.get p with
    | some J => rw [v.keep p J h0] at hI; exact .inl hI
    | none => obtain ⟨d, hd, hp, _⟩ := v.new p I hI h0; exact .inr ⟨d, hd, hp⟩
  · intro hf a l hl x hx
    have hx : Under w a x := by
      obtain ⟨c', h1, h2⟩ := hx
      exact ⟨c', v.alike.tenants ▸ h1, v.alike.tobjs ▸ h2⟩
    rcases Classical.em (∃ l', w.hierarchy.get a = some l') with ⟨l', hl'⟩ | hn
    · rw [v.alike.keep a l' hl'] at hl; cases hl; exact hf a l hl' x hx
    · have h0 : w.hierarchy.get a = none := by
        cases h0 : w.hierarchy.get a with
        | none => rfl
        | some l' => exact absurd ⟨l', h0⟩ hn
      exact ((v.alike.new a l hl h0).2 _).2 ⟨x, rfl, hx⟩

/-! ## The calls return -/

/-- Enough stack for the call `k`. -/
structure Fits (w0 : Mgr) (fuel : Nat) (k : Call) : Prop where
  rows : ∀ row, Stored w0 row → row.principal = .str k.p → row.tenant ≠ .nil → ∃ t, row.tenant = .str t
  ready : ∀ t, Manages w0 k.p t → Ready w0 fuel t
  decide : ∀ w, w.Inv → Mgr.SameBut w0 w → ∀ I, ∃ b, decideWith w k.o fuel k.site k.p (requestOf k.opts) I = .ok b

theorem fits {w0 : Mgr} (inv : w0.Inv) {k : Call} (hr : Returns w0 k.p (requestOf k.opts)) : ∃ n, ∀ m ≥ n, Fits w0 m k := by
  obtain ⟨n1, hn1⟩ := RHeap.bound_exists
    (P := fun (e : Str × Nat) n => Manages w0 k.p e.1 → ∀ m ≥ n, ∀ o site, ∃ ds, w0.descendants o m site e.2 = .ok ds)
    (fun e n m hp hnm hm k hk => hp hm k (by omega)) w0.tenants
    (fun e he => by
      by_cases hm : Manages w0 k.p e.1
      · have hg := (GoMap.mem_iff_get inv.regT).1 he
        obtain ⟨t, ht, _⟩ := inv.tenants _ _ hg
        obtain ⟨n, hn⟩ := Mgr.descendants_total inv (hr.links e.1 e.2 hm hg) (RHeap.lt_of_get ht)
        exact ⟨n, fun _ => hn⟩
      · exact ⟨0, fun h => absurd h hm⟩)
  obtain ⟨n2, hn2⟩ : ∃ n2, ∀ m ≥ n2, HasActivity (requestOf k.opts) → ∃ g act, (requestOf k.opts).group = .str g ∧
      (requestOf k.opts).activity = .str act ∧
      ∀ o q a, (q, a) ∈ w0.roles → ∀ site, ∃ b, w0.heap.has o g act [] m site a = .ok b := by
    by_cases hA : HasActivity (requestOf k.opts)
    · obtain ⟨_, g, act, e1, e2, hroles⟩ := hr.act hA
      obtain ⟨n, hn⟩ := RHeap.bound_exists
        (P := fun (e : Str × Nat) n => ∀ m ≥ n, ∀ o site, ∃ b, w0.heap.has o g act [] m site e.2 = .ok b)
        (fun e n m hp hnm k hk => hp k (by omega)) w0.roles
        (fun e he => by
          obtain ⟨ro, hro, _⟩ := inv.roles _ _ ((GoMap.mem_iff_get inv.regR).1 he)
          obtain ⟨n, hn⟩ := C17_terminates inv.heap (hroles e.1 e.2 he).1 (RHeap.lt_of_get hro) (hroles e.1 e.2 he).2
          exact ⟨n, fun m hm o site => hn m hm [] o site⟩)
      exact ⟨n, fun m hm _ => ⟨g, act, e1, e2, fun o q a ha => hn (q, a) ha m hm o⟩⟩
    · exact ⟨0, fun _ _ h => absurd h hA⟩
  refine ⟨max n1 n2, fun m hm => ⟨hr.rows, ?_, ?_⟩⟩
  · intro t ht c hc
    exact hn1 (t, c) (GoMap.get_some_mem hc) ht m (by omega)
  · intro w i s I
    have hact : HasActivity (requestOf k.opts) → Mgr.StrRoles w ∧ ∃ g act, (requestOf k.opts).group = .str g ∧
        (requestOf k.opts).activity = .str act ∧
        ∀ q a, (q, a) ∈ w.roles → ∀ site, ∃ b, w.heap.has k.o g act [] m site a = .ok b := by
      intro hA
      obtain ⟨g, act, e1, e2, hh⟩ := hn2 m (by omega) hA
      have hs := (hr.act hA).1
      rw [s]
      exact ⟨hs, g, act, e1, e2, hh k.o⟩
    unfold decideWith
    split
    · exact ⟨_, rfl⟩
    · obtain ⟨v, hv⟩ := Mgr.validateResources_total (w := w) hr.tenant hr.namespace_ hr.scope
      rw [hv, Out.bind_ok]
      cases v with
      | false => exact ⟨_, rfl⟩
      | true =>
        simp only [Bool.not_true, Bool.false_eq_true, if_false]
        obtain ⟨b, hb⟩ := Mgr.check_total i hact (site := k.site ++ [.int 1]) (p := k.p) (c := (requestOf k.opts).tenant)
          (Classical.em _).symm
        have hb : w.check k.o m (k.site ++ [.int 1]) k.p (requestOf k.opts) (flagsOf (requestOf k.opts)) = .ok b := hb
        rw [hb, Out.bind_ok]
        cases b with
        | true => exact ⟨_, rfl⟩
        | false =>
          simp only [Bool.false_eq_true, if_false]
          exact Mgr.fallback_total i hact (c := (requestOf k.opts).tenant)

/-- The rows a call has still to look at are rows of its principal. -/
def RowsOk (w0 : Mgr) (k : Call) : Spot → Prop
  | .loop _ rows _ | .fill _ rows _ _ _ => ∀ row ∈ rows, Stored w0 row ∧ row.principal = .str k.p ∧ row.tenant ≠ .nil
  | _ => True

theorem step1_returns {w0 : Mgr} (inv : w0.Inv) {fuel : Nat} {calls : List Call} {w : Mgr} {k : Call} {s : Spot}
    (ok : Ok w0 fuel calls w) (hf : Fits w0 fuel k) (hs : RowsOk w0 k s) :
    ∃ w' r, step1 fuel w k s = .ok (w', r) ∧ ∀ s', r = .inl s' → RowsOk w0 k s' := by
  cases s with
  | enter =>
    rw [step1]
    split
    · exact ⟨_, _, rfl, fun _ h => by cases h⟩
    · exact ⟨_, _, rfl, fun _ h => by cases h; trivial⟩
  | cache =>
    rw [step1]
    split
    · exact ⟨_, _, rfl, fun _ h => by cases h; trivial⟩
    · refine ⟨_, _, rfl, fun _ h => ?_⟩
      cases h
      intro row hr
      unfold Mgr.search at hr
      rw [ok.alike.trie] at hr
      exact (Mgr.mem_rowsOf inv).1 hr
  | loop i rows E =>
    cases rows with
    | nil => exact ⟨_, _, rfl, fun _ h => by cases h; trivial⟩
    | cons row rest =>
      obtain ⟨h1, h2, h3⟩ := hs row (by simp)
      have hrest : ∀ r ∈ rest, Stored w0 r ∧ r.principal = .str k.p ∧ r.tenant ≠ .nil := fun r hr => hs r (by simp [hr])
      obtain ⟨t, ht⟩ := hf.rows row h1 h2 h3
      rw [step1, ht]
      simp only
      split
      · exact ⟨_, _, rfl, fun _ h => by cases h; exact hrest⟩
      · split
        · rename_i hm
          split
          · rename_i l hh
            obtain ⟨E', hE'⟩ := Mgr.addDescs_total (E := E ++ [t]) (ok.alike.hit inv hh).1
            rw [hE']
            exact ⟨_, _, rfl, fun _ h => by cases h; exact hrest⟩
          · split
            · exact ⟨_, _, rfl, fun _ h => by cases h; exact hrest⟩
            · rename_i c hc
              rw [ok.alike.tenants] at hc
              obtain ⟨ds, hds⟩ := hf.ready t ⟨row, h1, h2, ht, hm⟩ c hc k.o (k.site ++ [.int 0] ++ [.int 1] ++ [.int i])
              rw [descendants_tobjs ok.alike.tobjs, hds]
              exact ⟨_, _, rfl, fun _ h => by cases h; exact hrest⟩
        · exact ⟨_, _, rfl, fun _ h => by cases h; exact hrest⟩
  | fill i rest E t ds =>
    obtain ⟨E', hE'⟩ := Mgr.addDescs_total (E := E) (l := ds.map Val.str) (by simp)
    rw [step1, hE']
    exact ⟨_, _, rfl, fun _ h => by cases h; exact hs⟩
  | store E => exact ⟨_, _, rfl, fun _ h => by cases h; trivial⟩
  | decide I =>
    obtain ⟨b, hb⟩ := hf.decide w ok.inv ok.alike.same I
    rw [step1, show k.opts.foldl Opt.apply {} = requestOf k.opts from rfl, hb]
    exact ⟨_, _, rfl, fun _ h => by cases h⟩

theorem conf_returns {w0 : Mgr} (inv : w0.Inv) {fuel : Nat} {calls : List Call} (hf : ∀ k ∈ calls, Fits w0 fuel k) {c : Conf}
    (v : ConfOk w0 fuel calls c) (hr : ∀ t ∈ c.ts, ∀ k s, t.cur = some (k, s) → RowsOk w0 k s) (i : Nat) :
    ∃ c', c.step fuel i = some c' ∧ ∀ t ∈ c'.ts, ∀ k s, t.cur = some (k, s) → RowsOk w0 k s := by
  unfold Conf.step
  split
  · exact ⟨c, rfl, hr⟩
  · rename_i t ht
    have hm := List.mem_of_getElem? ht
    split
    · split
      · exact ⟨c, rfl, hr⟩
      · refine ⟨_, rfl, ?_⟩
        intro u hu q s hq
        rcases mem_ts hu with rfl | hu
        · cases hq; trivial
        · exact hr u hu q s hq
    · rename_i k s hc
      obtain ⟨w', r, h1, h2⟩ := step1_returns inv v.mgr (hf k (v.cur t hm k s hc).1) (hr t hm k s hc)
      rw [h1]
      cases r with
      | inl s' =>
        refine ⟨_, rfl, ?_⟩
        intro u hu q s hq
        rcases mem_ts hu with rfl | hu
        · cases hq; exact h2 _ rfl
        · exact hr u hu q s hq
      | inr b =>
        refine ⟨_, rfl, ?_⟩
        intro u hu q s hq
        rcases mem_ts hu with rfl | hu
        · cases hq
        · exact hr u hu q s hq

/-- C103. Calls that return when they are made alone return when they are made together: no schedule makes one of them panic or
run for ever. -/
theorem C103_returns {w : Mgr} (inv : w.Inv) {calls : List (List Call)}
    (hr : ∀ k ∈ calls.flatten, Returns w k.p (requestOf k.opts)) :
    ∃ n, ∀ fuel ≥ n, ∀ is, ∃ c, (Conf.start w calls).run fuel is = some c := by
  obtain ⟨n, hn⟩ : ∃ n, ∀ m ≥ n, ∀ k ∈ calls.flatten, Fits w m k := by
    generalize calls.flatten = l at hr
    induction l with
    | nil => exact ⟨0, by simp⟩
    | cons k l ih =>
      obtain ⟨n1, h1⟩ := ih (fun q hq => hr q (by simp [hq]))
      obtain ⟨n2, h2⟩ := fits inv (hr k (by simp))
      refine ⟨max n1 n2, fun m hm q hq => ?_⟩
      rcases List.mem_cons.1 hq with rfl | hq
      · exact h2 m (by omega)
      · exact h1 m (by omega) q hq
  refine ⟨n, fun fuel hfuel is => ?_⟩
  have hf := hn fuel hfuel
  have key : ∀ (is : List Nat) (c : Conf), ConfOk w fuel calls.flatten c →
      (∀ t ∈ c.ts, ∀ k s, t.cur = some (k, s) → RowsOk w k s) → ∃ c', c.run fuel is = some c' := by
    intro is
    induction is with
    | nil => intro c _ _; exact ⟨c, rfl⟩
    | cons i is ih =>
      intro c v hc
      obtain ⟨c1, h1, h2⟩ := conf_returns inv hf v hc i
      obtain ⟨c2, h3⟩ := ih c1 (confOk_step inv v h1) h2
      exact ⟨c2, by rw [Conf.run, h1]; exact h3⟩
  refine key is _ (confOk_start inv) ?_
  intro t ht k s hk
  obtain ⟨l, hl, rfl⟩ := List.mem_map.1 ht
  cases hk

/-- The steps left to a call. -/
def Spot.left (w : Mgr) (k : Call) : Spot → Nat
  | .enter => 2 * (rowsOf w k).length + 5
  | .cache => 2 * (rowsOf w k).length + 4
  | .loop _ rows _ => 2 * rows.length + 3
  | .fill _ rest _ _ _ => 2 * rest.length + 4
  | .store _ => 2
  | .decide _ => 1

/-- The steps a call takes: two for every row of its principal, and six more. -/
def cost (w : Mgr) (k : Call) : Nat := 2 * (rowsOf w k).length + 6

def Thread.left (w : Mgr) (t : Thread) : Nat :=
  (t.todo.map (cost w)).sum + match t.cur with
    | none => 0
    | some (k, s) => s.left w k

/-- The calls of a goroutine, in order. -/
def Thread.all (t : Thread) : List Call := t.out.map (·.1) ++ t.cur.toList.map (·.1) ++ t.todo

theorem step1_left {w0 : Mgr} {fuel : Nat} {calls : List Call} {w w' : Mgr} {k : Call} {s s' : Spot}
    (ok : Ok w0 fuel calls w) (h : step1 fuel w k s = .ok (w', .inl s')) : s'.left w0 k + 1 ≤ s.left w0 k := by
  have hrows : rowsOf w k = rowsOf w0 k := by unfold rowsOf Mgr.search; rw [ok.alike.trie]
  cases s with
  | enter =>
    rw [step1] at h
    split at h
    · cases h
    · cases h; simp [Spot.left]
  | cache =>
    rw [step1] at h
    split at h
    · cases h; simp [Spot.left]
    · cases h
      simp only [Spot.left]
      rw [← hrows, rowsOf]
      omega
  | loop i rows E =>
    cases rows with
    | nil => rw [step1] at h; cases h; simp [Spot.left]
    | cons row rest =>
      rw [step1] at h
      split at h
      · split at h
        · cases h; simp [Spot.left]; omega
        · split at h
          · split at h
            · obtain ⟨_, _, h⟩ := Out.map_eq_ok.1 h; cases h; simp [Spot.left]; omega
            · split at h
              · cases h; simp [Spot.left]; omega
              · obtain ⟨_, _, h⟩ := Out.map_eq_ok.1 h; cases h; simp [Spot.left]; omega
          · cases h; simp [Spot.left]; omega
      · cases h
  | fill i rest E t ds =>
    rw [step1] at h
    obtain ⟨_, _, h⟩ := Out.map_eq_ok.1 h; cases h; simp [Spot.left]
  | store E => rw [step1] at h; cases h; simp [Spot.left]
  | decide I => rw [step1] at h; obtain ⟨_, _, h⟩ := Out.map_eq_ok.1 h; cases h

theorem spot_left_pos {w : Mgr} {k : Call} {s : Spot} : 1 ≤ s.left w k := by cases s <;> simp [Spot.left]

theorem step_left {w0 : Mgr} {fuel : Nat} {calls : List Call} {c c' : Conf} {i : Nat} (v : ConfOk w0 fuel calls c)
    (e : c.step fuel i = some c') {j : Nat} {t : Thread} (ht : c.ts[j]? = some t) :
    ∃ t', c'.ts[j]? = some t' ∧ t'.all = t.all ∧ t'.left w0 ≤ t.left w0 - (if i = j then 1 else 0) := by
  unfold Conf.step at e
  by_cases hij : i = j
  · subst hij
    have hl := (List.getElem?_eq_some_iff.1 ht).1
    have hm := List.mem_of_getElem? ht
    rw [ht] at e
    simp only at e
    simp only [if_true]
    split at e
    · rename_i hc
      split at e
      · rename_i htd
        cases e
        exact ⟨t, ht, rfl, by simp [Thread.left, hc, htd]⟩
      · rename_i k rest htd
        cases e
        refine ⟨_, List.getElem?_set_self hl, by simp [Thread.all, hc, htd], ?_⟩
        simp only [Thread.left, hc, htd, List.map_cons, List.sum_cons, Spot.left, cost]
        omega
    · rename_i k s hc
      split at e
      · rename_i w s' hs
        cases e
        refine ⟨_, List.getElem?_set_self hl, by simp [Thread.all, hc], ?_⟩
        have := step1_left v.mgr hs
        simp only [Thread.left, hc]
        omega
      · rename_i w b hs
        cases e
        refine ⟨_, List.getElem?_set_self hl, by simp [Thread.all, hc], ?_⟩
        have := spot_left_pos (w := w0) (k := k) (s := s)
        simp only [Thread.left, hc]
        omega
      · cases e
  · rw [if_neg hij]
    split at e
    · cases e; exact ⟨t, ht, rfl, by omega⟩
    · split at e
      · split at e
        · cases e; exact ⟨t, ht, rfl, by omega⟩
        · cases e
          exact ⟨t, by rw [← ht]; exact List.getElem?_set_ne hij, rfl, by omega⟩
      · split at e
        · cases e; exact ⟨t, by rw [← ht]; exact List.getElem?_set_ne hij, rfl, by omega⟩
        · cases e; exact ⟨t, by rw [← ht]; exact List.getElem?_set_ne hij, rfl, by omega⟩
        · cases e

/-- C103. No call waits for another: a goroutine that is given two steps for every row of the principals it asks for, and
six more for every call, has all its answers, whatever the others do or do not do. -/
theorem C103_wait_free {w : Mgr} (inv : w.Inv) {fuel : Nat} {calls : List (List Call)} {is : List Nat} {c : Conf}
    (h : (Conf.start w calls).run fuel is = some c) {i : Nat} {l : List Call} (hi : calls[i]? = some l)
    (hn : (l.map fun k => 2 * (rowsOf w k).length + 6).sum ≤ is.count i) :
    ∃ t, c.ts[i]? = some t ∧ t.cur = none ∧ t.todo = [] ∧ t.out.map (·.1) = l := by
  have key : ∀ (is : List Nat) (c c' : Conf) (t : Thread), ConfOk w fuel calls.flatten c → c.run fuel is = some c' →
      c.ts[i]? = some t → ∃ t', c'.ts[i]? = some t' ∧ t'.all = t.all ∧ t'.left w ≤ t.left w - is.count i := by
    intro is
    induction is with
    | nil => intro c c' t v e ht; cases e; exact ⟨t, ht, rfl, by simp⟩
    | cons j is ih =>
      intro c c' t v e ht
      simp only [Conf.run, Option.bind_eq_some_iff] at e
      obtain ⟨c1, h1, h2⟩ := e
      obtain ⟨t1, a1, a2, a3⟩ := step_left v h1 ht
      obtain ⟨t2, b1, b2, b3⟩ := ih c1 c' t1 (confOk_step inv v h1) h2 a1
      refine ⟨t2, b1, b2.trans a2, ?_⟩
      rw [List.count_cons]
      simp only [beq_iff_eq]
      split at a3 <;> simp_all <;> omega
  obtain ⟨t, a1, a2, a3⟩ := key is _ c { todo := l } (confOk_start inv) h (by simp [Conf.start, hi])
  have h0 : t.left w = 0 := by
    have : Thread.left w { todo := l } = (l.map fun k => 2 * (rowsOf w k).length + 6).sum := by
      simp only [Thread.left]; rfl
    omega
  refine ⟨t, a1, ?_⟩
  have hc : t.cur = none := by
    cases hc : t.cur with
    | none => rfl
    | some x =>
      obtain ⟨k, s⟩ := x
      have := spot_left_pos (w := w) (k := k) (s := s)
      simp only [Thread.left, hc] at h0
      omega
  have htd : t.todo = [] := by
    cases htd : t.todo with
    | nil => rfl
    | cons k rest =>
      simp only [Thread.left, htd, List.map_cons, List.sum_cons, cost] at h0
      omega
  refine ⟨hc, htd, ?_⟩
  simpa [Thread.all, hc, htd] using a2

/-! ## C104 -/

/-- C104 as claimed. -/
def C104_full : Prop := ∀ (ops : List MOp) (w : Mgr) (fuel : Nat) (calls : List (List Call)) (is : List Nat) (c : Conf),
  MOp.run {} ops = .ok w → (Conf.start w calls).run fuel is = some c →
  ∀ t ∈ c.ts, ∀ t' ∈ c.ts, ∀ k b k' b', (k, b) ∈ t.out → (k', b') ∈ t'.out → k.p = k'.p → k.opts = k'.opts → b = b'

/-- The request of the example: tenant a, namespace n. -/
def exReq : List Opt := [.tenant (.str (str "a")), .namespace_ (.str (str "n"))]

/-- One goroutine asks twice, another once, in the world of `C25_counterexample`. -/
def exCalls : List (List Call) :=
  [[⟨.rev, [], str "p", exReq⟩, ⟨.rev, [], str "p", exReq⟩], [⟨.fwd, [], str "p", exReq⟩]]

/-- Both look into the cache; goroutine 0 goes on to its first answer; goroutine 1 comes to its own;
goroutine 0 asks again. -/
def exRun : List Nat := [0, 0, 0, 1, 1, 1] ++ List.replicate 6 0 ++ List.replicate 6 1 ++ List.replicate 9 0

/-- C104 is violated: one goroutine asks the same thing twice and gets two answers, though nothing is changed in
between: the other goroutine has replaced the cached tenants. -/
theorem C104_counterexample : ∃ w, MOp.run {} exOrder = .ok w ∧
    ((Conf.start w exCalls).run 9 exRun).map (·.answers) = some [[true, false], [false]] := by
  exact Out.chk_ok (by decide +kernel)

theorem C104_full_false : ¬ C104_full := by
  intro hf
  obtain ⟨w, h1, h2⟩ := C104_counterexample
  obtain ⟨c, h3, h4⟩ := Option.map_eq_some_iff.1 h2
  have hlen : ∃ t l, c.ts = t :: l ∧ t.out.map (·.2) = [true, false] := by
    obtain ⟨t, l, h5, h6, _⟩ := List.map_eq_cons_iff.1 h4
    exact ⟨t, l, h5, h6⟩
  obtain ⟨t, t', hts, ho⟩ := hlen
  have inv := MOp.reachable_inv h1
  have ht : t ∈ c.ts := by simp [hts]
  match hout : t.out, ho with
  | [(k, b), (k', b')], ho =>
    simp only [List.map_cons, List.map_nil, List.cons.injEq, and_true] at ho
    have hk : ∀ k b, (k, b) ∈ t.out → k.p = str "p" ∧ k.opts = exReq := by
      intro k b hkb
      have := (C103_answers inv h3 ht hkb).1
      simp only [exCalls, List.flatten_cons, List.flatten_nil, List.append_nil, List.mem_append, List.mem_cons, List.not_mem_nil,
        or_false] at this
      rcases this with (rfl | rfl) | rfl <;> exact ⟨rfl, rfl⟩
    have a := hk k b (by simp [hout])
    have a' := hk k' b' (by simp [hout])
    have := hf exOrder w 9 exCalls exRun c h1 h3 t ht t ht k b k' b' (by simp [hout]) (by simp [hout])
      (a.1.trans a'.1.symm) (a.2.trans a'.2.symm)
    rw [ho.1, ho.2] at this
    cases this

/-- C104, partial: all answers to the same request agree if the tenants of the principal are cached before, by a call that has
returned.  Missing: principals whose tenants no call has cached yet (false, see `C104_counterexample`). -/
theorem C104_cached_partial {w : Mgr} (inv : w.Inv) {fuel : Nat} {calls : List (List Call)} {is : List Nat} {c : Conf}
    (h : (Conf.start w calls).run fuel is = some c) {t t' : Thread} (ht : t ∈ c.ts) (ht' : t' ∈ c.ts) {k k' : Call} {b b' : Bool}
    (hk : (k, b) ∈ t.out) (hk' : (k', b') ∈ t'.out) (hp : k.p = k'.p) (ho : k.opts = k'.opts) {I : List Str}
    (hc : w.pcache.get k.p = some I) : b = b' := by
  have key : ∀ {t k b}, t ∈ c.ts → (k, b) ∈ t.out → w.pcache.get k.p = some I →
      (b = true ↔ Allowed w k.p (requestOf k.opts) I) := by
    intro t k b ht hk hc
    rcases (C103_answers inv h ht hk).2 with ⟨h1, rfl⟩ | ⟨d, _, _, J, w', hJ, hb⟩
    · simp only [Bool.false_eq_true, false_iff]
      rintro ⟨⟨x, hx⟩, _⟩; exact h1 x hx
    · unfold Mgr.implicitTenants at hJ
      rw [hc] at hJ
      cases hJ
      exact hb
  rw [Bool.eq_iff_iff, key ht hk hc, key ht' hk' (hp ▸ hc), hp, ho]

/-- C104, partial: likewise if the conditions of C25 hold, and then the answers are those for the tenants of the principal and
all below those it manages. -/
theorem C104_uniform_partial {w : Mgr} (inv : w.Inv) {fuel : Nat} {calls : List (List Call)} {is : List Nat} {c : Conf}
    (h : (Conf.start w calls).run fuel is = some c) {t t' : Thread} (ht : t ∈ c.ts) (ht' : t' ∈ c.ts) {k k' : Call} {b b' : Bool}
    (hk : (k, b) ∈ t.out) (hk' : (k', b') ∈ t'.out) (hp : k.p = k'.p) (ho : k.opts = k'.opts)
    (hu : Uniform w k.p) (hl : LinksRegistered w) (hf : Mgr.HierFresh w) : b = b' := by
  cases hc : w.pcache.get k.p with
  | some I => exact C104_cached_partial inv h ht ht' hk hk' hp ho hc
  | none =>
    rcases (C103_answers inv h ht hk).2 with ⟨h1, rfl⟩ | ⟨d, _, _, J, w', hJ, hb⟩
    · rcases (C103_answers inv h ht' hk').2 with ⟨_, rfl⟩ | ⟨d, _, _, J, w', hJ, hb⟩
      · rfl
      · symm
        rw [Bool.eq_false_iff]
        intro e
        obtain ⟨⟨x, hx⟩, _⟩ := hb.1 e
        exact h1 x (hp ▸ hx)
    · rcases (C103_answers inv h ht' hk').2 with ⟨h1, rfl⟩ | ⟨d', _, _, J', w'', hJ', hb'⟩
      · rw [Bool.eq_false_iff]
        intro e
        obtain ⟨⟨x, hx⟩, _⟩ := hb.1 e
        exact h1 x (hp ▸ hx)
      · rw [← hp] at hJ'
        rw [Bool.eq_iff_iff, hb, hb', ← hp, ← ho]
        apply Allowed.congr
        intro x
        rw [C25_implicit_exact_partial inv hu hl hf hc hJ, C25_implicit_exact_partial inv hu hl hf hc hJ']

/-! ## Examples -/

/-- Three goroutines, in the world of C26 - C28: two ask for the same principal at the same time, one in each order; one asks for an
unregistered principal. -/
def exCalls3 : List (List Call) :=
  [[⟨.fwd, [], str "p", [.tenant (.str (str "b")), .namespace_ (.str (str "n"))]⟩],
   [⟨.rev, [], str "p", [.tenant (.str (str "b")), .namespace_ (.str (str "n"))]⟩, ⟨.rev, [], str "p", [.tenant (.str (str "y"))]⟩],
   [⟨.fwd, [], str "x", [.tenant (.str (str "a"))]⟩]]

/-- The goroutines in turn. -/
def exRun3 : List Nat := (List.replicate 16 [0, 1, 2]).flatten

/-- C103, C104: the calls interleaved step by step; both caches are filled. -/
example : ∃ w, MOp.run {} exWorld = .ok w ∧
    (((Conf.start w exCalls3).run 9 exRun3).map (·.answers) = some [[true], [true, false], [false]] ∧
     ((Conf.start w exCalls3).run 9 exRun3).map (·.w.pcache.get (str "p")) = some (some [str "a", str "b"]) ∧
     ((Conf.start w exCalls3).run 9 exRun3).map (·.w.hierarchy.get (str "a")) = some (some [.str (str "b")])) :=
  Out.chk_ok (by decide +kernel)

/-- C103: the steps of `C103_wait_free` for these calls. -/
example : ∃ w, MOp.run {} exWorld = .ok w ∧
    exCalls3.map (fun l => (l.map fun k => 2 * (rowsOf w k).length + 6).sum) = [8, 16, 6] :=
  Out.chk_ok (by decide +kernel)

end AC
end Verif
