import Verif.Props.Repeats
import Verif.Props.Origin
import Verif.Model.TenantCost

/-! # How often a root decision calls `GetDescendants` of tenants (C134) -/

namespace Verif
open Spec

namespace Spec

/-- How many calls of `GetDescendants` it takes to list what is below the tenant registered under `t`, if no walk has more than `H`
links: one for every walk down, the empty one included. -/
def listingCalls (w : Mgr) (H : Nat) (t : Str) : Nat :=
  match w.tenants.get t with
  | none => 0
  | some c => sumTo (H + 1) fun k => walks (tenantKids w) k c

end Spec

namespace Mgr
variable {w : Mgr} {o : Ord} {fuel : Nat}

theorem collectI_counted {α β : Type} {f : Nat → α → Out (List β)} {g : Nat → α → Out (List (List β × Nat))} {xs : List α} {i : Nat}
    (h : ∀ j, ∀ x ∈ xs, g j x = (f j x).map fun l => [(l, l.length)]) :
    (Out.collectI g i xs).map (fun ls => ((ls.map (·.1)).flatten, 1 + (ls.map (·.2)).sum)) =
      (Out.collectI f i xs).map fun l => (l, 1 + l.length) := by
  induction xs generalizing i with
  | nil => rfl
  | cons x xs ih =>
    have ih := ih (i := i + 1) fun j y hy => h j y (by simp [hy])
    rw [Out.collectI, Out.collectI, h i x (by simp)]
    cases f i x with
    | panic => rfl
    | diverge => rfl
    | ok a =>
      simp only [Out.map_ok, Out.bind_ok]
      cases hg : Out.collectI g (i + 1) xs with
      | panic => rw [hg] at ih; cases hf : Out.collectI f (i + 1) xs <;> rw [hf] at ih <;> first | rfl | cases ih
      | diverge => rw [hg] at ih; cases hf : Out.collectI f (i + 1) xs <;> rw [hf] at ih <;> first | rfl | cases ih
      | ok ls =>
        rw [hg] at ih
        cases hf : Out.collectI f (i + 1) xs with
        | panic => rw [hf] at ih; cases ih
        | diverge => rw [hf] at ih; cases ih
        | ok l =>
          rw [hf] at ih
          simp only [Out.map_ok, Out.ok.injEq, Prod.mk.injEq] at ih
          simp only [Out.bind_ok, Out.map_ok, List.cons_append, List.nil_append, List.map_cons, List.flatten_cons, List.sum_cons, ih.1,
            List.length_append, Out.ok.injEq, Prod.mk.injEq, true_and]
          omega

theorem descendantsG_eq {site : List Val} {c : Nat} :
    w.descendantsG o fuel site c = (w.descendants o fuel site c).map fun ds => (ds, 1 + ds.length) := by
  induction fuel generalizing site c with
  | zero => rfl
  | succ n ih =>
    rw [descendantsG, descendants_succ]
    cases w.tobjs[c]? with
    | none => rfl
    | some t =>
      refine collectI_counted fun j e _ => ?_
      rw [ih]
      cases w.descendants o n (site ++ [.int j]) e.2 with
      | panic => rfl
      | diverge => rfl
      | ok ds => simp only [Out.map_ok, List.length_cons, Nat.add_comm]

theorem tenantChildrenG_eq {site : List Val} {id : Str} :
    (w.tenantChildrenG o fuel site id).map (·.1) = w.tenantChildren o fuel site id := by
  unfold tenantChildrenG tenantChildren
  cases w.hierarchy.get id with
  | some hier => rfl
  | none =>
    cases w.tenants.get id with
    | none => rfl
    | some c =>
      simp only [descendantsG_eq]
      cases w.descendants o fuel site c <;> rfl

theorem implicitLoopG_eq {site : List Val} {rows : List Data} {i k : Nat} {E : List Str} :
    (implicitLoopG o fuel site i rows E w k).map (·.1) = implicitLoop o fuel site i rows E w := by
  induction rows generalizing i k E w with
  | nil => rfl
  | cons row rows ih =>
    rw [implicitLoopG, implicitLoop]
    cases row.tenant with
    | str t =>
      dsimp only
      by_cases h : t ∈ E
      · rw [if_pos h, if_pos h]; exact ih
      rw [if_neg h, if_neg h]
      by_cases hm : row.manage = .bool true
      · rw [if_pos hm, if_pos hm, ← tenantChildrenG_eq]
        cases w.tenantChildrenG o fuel (site ++ [.int i]) t with
        | panic => rfl
        | diverge => rfl
        | ok x =>
          simp only [Out.bind_ok, Out.map_ok]
          cases addDescs (E ++ [t]) x.1.1 with
          | panic => rfl
          | diverge => rfl
          | ok E' => exact ih
      · rw [if_neg hm, if_neg hm]; exact ih
    | nil => rfl
    | bool b => rfl
    | int n => rfl

theorem implicitTenantsG_eq {site : List Val} {p : Str} :
    (w.implicitTenantsG o fuel site p).map (·.1) = w.implicitTenants o fuel site p := by
  unfold implicitTenantsG implicitTenants
  cases w.pcache.get p with
  | some I => rfl
  | none =>
    simp only [← implicitLoopG_eq (k := 0)]
    cases implicitLoopG o fuel (site ++ [.int 1]) 0
      (w.search o (site ++ [.int 0]) { principal := .str p } filterTenantsByPrincipal) [] w 0 <;> rfl

/-- C134: counting does not change the answer. -/
theorem _root_.Verif.C134_counted {site : List Val} {p : Str} {opts : List Opt} :
    (w.authorizeG o fuel site p opts).map (·.1) = w.authorize o fuel site p opts := by
  unfold authorizeG authorize
  split
  · rfl
  · rw [← implicitTenantsG_eq]
    simp only
    cases w.implicitTenantsG o fuel (site ++ [.int 0]) p with
    | panic => rfl
    | diverge => rfl
    | ok x =>
      simp only [Out.bind_ok, Out.map_ok]
      split
      · rfl
      · cases x.1.2.validateResources (opts.foldl Opt.apply {}) with
        | panic => rfl
        | diverge => rfl
        | ok v =>
          simp only [Out.bind_ok]
          split
          · rfl
          · cases x.1.2.check o fuel (site ++ [.int 1]) p (opts.foldl Opt.apply {}) (flagsOf (opts.foldl Opt.apply {})) with
            | panic => rfl
            | diverge => rfl
            | ok b =>
              simp only [Out.bind_ok]
              split
              · rfl
              · cases x.1.2.fallback o fuel (site ++ [.int 2]) p (flagsOf (opts.foldl Opt.apply {})) 0 (opts.foldl Opt.apply {})
                  (o.ord (site ++ [.int 3]) _ x.1.1) <;> rfl

/-- The calls are those of `GetImplicitTenants`. -/
theorem authorizeG_inv {site : List Val} {p : Str} {opts : List Opt} {b : Bool} {w' : Mgr} {g : Nat}
    (h : w.authorizeG o fuel site p opts = .ok ((b, w'), g)) :
    (w.principals.get p = none ∧ g = 0 ∧ w' = w) ∨ ∃ I, w.implicitTenantsG o fuel (site ++ [.int 0]) p = .ok ((I, w'), g) := by
  unfold authorizeG at h
  split at h
  · rename_i hn; cases h; exact .inl ⟨Option.isNone_iff_eq_none.1 hn, rfl, rfl⟩
  · simp only [Out.bind_eq_ok] at h
    obtain ⟨⟨⟨I, w1⟩, k⟩, h1, h⟩ := h
    refine .inr ⟨I, ?_⟩
    simp only at h
    rw [h1]
    split at h
    · cases h; rfl
    · simp only [Out.bind_eq_ok] at h
      obtain ⟨v, _, h⟩ := h
      split at h
      · cases h; rfl
      · simp only [Out.bind_eq_ok] at h
        obtain ⟨b', _, h⟩ := h
        split at h
        · cases h; rfl
        · obtain ⟨b'', _, e⟩ := Out.map_eq_ok.1 h
          cases e; rfl

theorem descendants_length (inv : w.Inv) {site : List Val} {c : Nat} {ds : List Str} (hd : w.descendants o fuel site c = .ok ds)
    {H : Nat} (hH : walks (tenantKids w) (H + 1) c = 0) : 1 + ds.length = sumTo (H + 1) fun k => walks (tenantKids w) k c := by
  rw [descendants_eq inv] at hd
  obtain ⟨es, h1, rfl⟩ := Out.map_eq_ok.1 hd
  rw [← tlinks_kids] at hH ⊢
  rw [List.length_map, C123_roles_length h1 hH, sumTo_succ]
  rfl

/-- C134: to list what is below a tenant, `GetDescendants` is called once for every walk down from it. -/
theorem _root_.Verif.C134_listing (inv : w.Inv) {site : List Val} {c : Nat} {ds : List Str} {g : Nat}
    (hd : w.descendantsG o fuel site c = .ok (ds, g)) {H : Nat} (hH : walks (tenantKids w) (H + 1) c = 0) :
    g = sumTo (H + 1) fun k => walks (tenantKids w) k c := by
  rw [descendantsG_eq] at hd
  obtain ⟨ds', h1, h2⟩ := Out.map_eq_ok.1 hd
  cases h2
  exact descendants_length inv h1 hH

theorem walks_more {kids : Nat → List Nat} {k c : Nat} (h : walks kids k c = 0) : walks kids (k + 1) c = 0 := by
  induction k generalizing c with
  | zero => cases h
  | succ k ih =>
    have h' : ((kids c).map (walks kids k)).sum = 0 := h
    show ((kids c).map (walks kids (k + 1))).sum = 0
    rw [← sum_zero (kids c)]
    refine sum_congr fun d hd => ih ?_
    exact sum_eq_zero h' d hd

theorem descendants_walks (inv : w.Inv) {site : List Val} {c : Nat} {ds : List Str} (hd : w.descendants o fuel site c = .ok ds) :
    walks (tenantKids w) (fuel + 1) c = 0 := by
  rw [descendants_eq inv] at hd
  obtain ⟨es, h1, _⟩ := Out.map_eq_ok.1 hd
  rw [← tlinks_kids]
  exact walks_more (RHeap.walks_zero h1)

/-- The calls made for one tenant. -/
theorem tenantChildrenG_calls (inv : w.Inv) {site : List Val} {t : Str} {l : List Val} {w' : Mgr} {g : Nat}
    (h : w.tenantChildrenG o fuel site t = .ok ((l, w'), g)) :
    (g = if w.hierarchy.get t = none then listingCalls w fuel t else 0) ∧
    (w.hierarchy.get t = none → ∀ c, w.tenants.get t = some c → ∃ site ds, w.descendants o fuel site c = .ok ds) := by
  unfold tenantChildrenG at h
  cases hh : w.hierarchy.get t with
  | some hier => rw [hh] at h; cases h; simp
  | none =>
    rw [hh] at h
    simp only [if_true]
    unfold listingCalls
    cases hc : w.tenants.get t with
    | none => rw [hc] at h; cases h; exact ⟨rfl, fun _ c hc => by cases hc⟩
    | some c =>
      rw [hc] at h
      simp only at h
      obtain ⟨⟨ds, k⟩, h1, h2⟩ := Out.map_eq_ok.1 h
      cases h2
      have h3 := h1
      rw [descendantsG_eq] at h3
      obtain ⟨ds', h4, h5⟩ := Out.map_eq_ok.1 h3
      exact ⟨C134_listing inv h1 (descendants_walks inv h4), fun _ c' hc' => by cases hc'; exact ⟨_, ds', h4⟩⟩

theorem addDescs_keep {l : List Val} {E E' : List Str} (h : addDescs E l = .ok E') : ∀ x ∈ E, x ∈ E' := by
  induction l generalizing E with
  | nil => cases h; exact fun _ h => h
  | cons v l ih =>
    cases v with
    | nil => exact ih h
    | str s =>
      intro x hx
      refine ih (E := if s ∈ E then E else E ++ [s]) h x ?_
      split
      · exact hx
      · exact List.mem_append_left _ hx
    | bool b => cases h
    | int n => cases h

theorem implicitLoopG_calls {site : List Val} {rows : List Data} {i k : Nat} {E E' : List Str} {w w' w0 : Mgr} {g : Nat}
    (inv : w.Inv) (hw : w = { w0 with hierarchy := w.hierarchy })
    (h : implicitLoopG o fuel site i rows E w k = .ok ((E', w'), g)) :
    ∃ ts : List Str, ts.Nodup ∧
      (∀ t ∈ ts, t ∉ E ∧ w.hierarchy.get t = none ∧ (∃ row ∈ rows, row.manage = .bool true ∧ row.tenant = .str t) ∧
        ∀ c, w0.tenants.get t = some c → ∃ site ds, w0.descendants o fuel site c = .ok ds) ∧
      g = k + (ts.map (listingCalls w0 fuel)).sum := by
  induction rows generalizing i k E w with
  | nil => cases h; exact ⟨[], by simp, by simp, rfl⟩
  | cons row rows ih =>
    rw [implicitLoopG] at h
    split at h
    · rename_i t ht
      split at h
      · obtain ⟨ts, h1, h2, h3⟩ := ih inv hw h
        refine ⟨ts, h1, fun t ht => ?_, h3⟩
        obtain ⟨a1, a2, ⟨r, a3, a4⟩, a5⟩ := h2 t ht
        exact ⟨a1, a2, ⟨r, by simp [a3], a4⟩, a5⟩
      · rename_i hE
        split at h
        · rename_i hm
          simp only [Out.bind_eq_ok] at h
          obtain ⟨⟨⟨l, w1⟩, g1⟩, h1, E1, h2, h⟩ := h
          have hT : w.tenantChildren o fuel (site ++ [.int i]) t = .ok (l, w1) := by rw [← tenantChildrenG_eq, h1]; rfl
          obtain ⟨i1, e1, _, _, s1, _, _⟩ := tenantChildren_spec inv hT
          obtain ⟨hg1, hg2⟩ := tenantChildrenG_calls inv h1
          have hl : listingCalls w fuel t = listingCalls w0 fuel t := by rw [hw]; rfl
          have ht0 : w.tenants = w0.tenants := by rw [hw]
          rw [hl] at hg1
          have hw1 : w1 = { w0 with hierarchy := w1.hierarchy } := by
            rw [e1]; conv_lhs => rw [hw]
          obtain ⟨ts, a1, a2, a3⟩ := ih i1 hw1 h
          have hin : ∀ x ∈ E ++ [t], x ∈ E1 := addDescs_keep h2
          have rest : ∀ x ∈ ts, x ∉ E ∧ w.hierarchy.get x = none ∧
              (∃ row' ∈ row :: rows, row'.manage = .bool true ∧ row'.tenant = .str x) ∧
              ∀ c, w0.tenants.get x = some c → ∃ site ds, w0.descendants o fuel site c = .ok ds := by
            intro x hx
            obtain ⟨b1, b2, ⟨r, b3, b4⟩, b5⟩ := a2 x hx
            refine ⟨fun he => b1 (hin x (by simp [he])), ?_, ⟨r, by simp [b3], b4⟩, b5⟩
            rw [s1 x fun e => b1 (hin x (by simp [e]))] at b2
            exact b2
          cases hh : w.hierarchy.get t with
          | some hier =>
            rw [hh] at hg1
            exact ⟨ts, a1, rest, by rw [a3, hg1]; simp⟩
          | none =>
            rw [hh] at hg1
            simp only [if_true] at hg1
            refine ⟨t :: ts, List.nodup_cons.2 ⟨fun hx => (a2 t hx).1 (hin t (by simp)), a1⟩, ?_, ?_⟩
            · intro x hx
              rcases List.mem_cons.1 hx with rfl | hx
              · refine ⟨hE, hh, ⟨row, by simp, hm, ht⟩, fun c hc => ?_⟩
                obtain ⟨s, ds, hds⟩ := hg2 hh c (by rw [ht0]; exact hc)
                rw [hw, descendants_hier] at hds
                exact ⟨s, ds, hds⟩
              · exact rest x hx
            · rw [a3, hg1, List.map_cons, List.sum_cons]; omega
        · obtain ⟨ts, h1, h2, h3⟩ := ih inv hw h
          refine ⟨ts, h1, fun x hx => ?_, h3⟩
          obtain ⟨a1, a2, ⟨r, a3, a4⟩, a5⟩ := h2 x hx
          exact ⟨fun he => a1 (by simp [he]), a2, ⟨r, by simp [a3], a4⟩, a5⟩
    · cases h

theorem authorizeG_listed {ops : List MOp} (hr : MOp.run {} ops = .ok w) {site : List Val} {p : Str} {opts : List Opt} {b : Bool}
    {w' : Mgr} {g : Nat} (h : w.authorizeG o fuel site p opts = .ok ((b, w'), g)) :
    ∃ ts : List Str, ts.Nodup ∧ (∀ t ∈ ts, Manages w p t ∧ w.hierarchy.get t = none ∧ w.pcache.get p = none ∧
        ∀ c, w.tenants.get t = some c → ∃ site ds, w.descendants o fuel site c = .ok ds) ∧
      g = (ts.map (listingCalls w fuel)).sum := by
  have inv := MOp.reachable_inv hr
  rcases authorizeG_inv h with ⟨_, rfl, _⟩ | ⟨I, h⟩
  · exact ⟨[], by simp, by simp, rfl⟩
  · unfold implicitTenantsG at h
    cases hc : w.pcache.get p with
    | some J => rw [hc] at h; cases h; exact ⟨[], by simp, by simp, rfl⟩
    | none =>
      rw [hc] at h
      obtain ⟨⟨⟨E, w1⟩, k⟩, h1, h2⟩ := Out.map_eq_ok.1 h
      cases h2
      obtain ⟨ts, a1, a2, a3⟩ := implicitLoopG_calls (w0 := w) inv rfl h1
      refine ⟨ts, a1, fun t ht => ?_, by rw [a3, Nat.zero_add]⟩
      obtain ⟨_, b2, ⟨row, b3, b4, b5⟩, b6⟩ := a2 t ht
      obtain ⟨c1, c2, _⟩ := (mem_rowsOf inv).1 b3
      exact ⟨⟨row, c1, c2, b5, b4⟩, b2, rfl, b6⟩

variable {site : List Val} {p : Str} {opts : List Opt} {b : Bool} {w' : Mgr} {g : Nat}

/-- C134: the calls a decision makes.  It lists, once each, some tenants whose descendants the principal manages and whose list is not
cached; each takes one call for every walk down from it. -/
theorem _root_.Verif.C134_calls {ops : List MOp} (hr : MOp.run {} ops = .ok w) (h : w.authorizeG o fuel site p opts = .ok ((b, w'), g)) :
    ∃ (ts : List Str) (H : Nat), ts.Nodup ∧
      (∀ t ∈ ts, Manages w p t ∧ w.hierarchy.get t = none ∧ w.pcache.get p = none ∧
        ∀ c, w.tenants.get t = some c → walks (tenantKids w) (H + 1) c = 0) ∧
      g = (ts.map (listingCalls w H)).sum := by
  obtain ⟨ts, h1, h2, h3⟩ := authorizeG_listed hr h
  refine ⟨ts, fuel, h1, fun t ht => ?_, h3⟩
  obtain ⟨a1, a2, a3, a4⟩ := h2 t ht
  refine ⟨a1, a2, a3, fun c hc => ?_⟩
  obtain ⟨s, ds, hds⟩ := a4 c hc
  exact descendants_walks (MOp.reachable_inv hr) hds

/-- C134: a principal with one tenant, whose descendants they manage: the first decision makes one call for every walk down from it. -/
theorem _root_.Verif.C134_first {ops : List MOp} (hr : MOp.run {} ops = .ok w) {t : Str} {c H : Nat} (hc : w.tenants.get t = some c)
    (hH : walks (tenantKids w) (H + 1) c = 0) (hp : (w.principals.get p).isSome) (hfresh : w.pcache.get p = none)
    (hh : w.hierarchy.get t = none) (hm : Manages w p t)
    (only : ∀ row, Stored w row → row.principal = .str p → row.tenant ≠ .nil → row.tenant = .str t ∧ row.manage = .bool true)
    (h : w.authorizeG o fuel site p opts = .ok ((b, w'), g)) : g = sumTo (H + 1) fun k => walks (tenantKids w) k c := by
  have inv := MOp.reachable_inv hr
  rcases authorizeG_inv h with ⟨e, _⟩ | ⟨I, h⟩
  · rw [e] at hp; cases hp
  · unfold implicitTenantsG at h
    rw [hfresh] at h
    obtain ⟨⟨⟨E, w1⟩, k⟩, h1, h2⟩ := Out.map_eq_ok.1 h
    cases h2
    have hrows : ∀ row ∈ w.search o (site ++ [.int 0] ++ [.int 0]) { principal := .str p } filterTenantsByPrincipal,
        row.tenant = .str t ∧ row.manage = .bool true := fun row hrow => by
      obtain ⟨b1, b2, b3⟩ := (mem_rowsOf inv).1 hrow
      exact only row b1 b2 b3
    have hne : w.search o (site ++ [.int 0] ++ [.int 0]) { principal := .str p } filterTenantsByPrincipal ≠ [] := by
      obtain ⟨row, r1, r2, r3, _⟩ := hm
      exact List.ne_nil_of_mem ((mem_rowsOf inv).2 ⟨r1, r2, by rw [r3]; simp⟩)
    have skip : ∀ {rows : List Data} {i k : Nat} {E : List Str} {v : Mgr} {x}, (∀ row ∈ rows, row.tenant = .str t ∧ row.manage = .bool true) →
        t ∈ E → implicitLoopG o fuel (site ++ [.int 0] ++ [.int 1]) i rows E v k = .ok x → x.2 = k := by
      intro rows
      induction rows with
      | nil => intro i k E v x _ _ h; cases h; rfl
      | cons row rows ih =>
        intro i k E v x hrows hE h
        rw [implicitLoopG, (hrows row (by simp)).1] at h
        simp only [if_pos hE] at h
        exact ih (fun r hr => hrows r (by simp [hr])) hE h
    generalize w.search o (site ++ [.int 0] ++ [.int 0]) { principal := .str p } filterTenantsByPrincipal = rows at h1 hrows hne
    cases rows with
    | nil => exact absurd rfl hne
    | cons row rows =>
      rw [implicitLoopG, (hrows row (by simp)).1, (hrows row (by simp)).2] at h1
      simp only [List.not_mem_nil, if_false, if_true, Out.bind_eq_ok] at h1
      obtain ⟨⟨⟨l, w2⟩, g1⟩, h3, E1, h4, h1⟩ := h1
      have := skip (fun r hr => hrows r (by simp [hr])) (addDescs_keep h4 t (by simp)) h1
      unfold tenantChildrenG at h3
      rw [hh, hc] at h3
      obtain ⟨⟨ds, k'⟩, h5, h6⟩ := Out.map_eq_ok.1 h3
      cases h6
      have := C134_listing inv h5 hH
      simp only at *
      omega

/-- C134: decisions for a principal whose tenants are cached make no call. -/
theorem _root_.Verif.C134_cached {I : List Str} (hI : w.pcache.get p = some I) (h : w.authorizeG o fuel site p opts = .ok ((b, w'), g)) :
    g = 0 := by
  rcases authorizeG_inv h with ⟨_, e, _⟩ | ⟨J, h⟩
  · exact e
  · unfold implicitTenantsG at h
    rw [hI] at h; cases h; rfl

/-- C134: after one decision for a registered principal the others make no call. -/
theorem _root_.Verif.C134_once {ops : List MOp} (hr : MOp.run {} ops = .ok w) (h : w.authorizeG o fuel site p opts = .ok ((b, w'), g))
    {o2 : Ord} {fuel2 : Nat} {site2 : List Val} {opts2 : List Opt} {b2 : Bool} {w2 : Mgr} {g2 : Nat}
    (h2 : w'.authorizeG o2 fuel2 site2 p opts2 = .ok ((b2, w2), g2)) : g2 = 0 := by
  rcases authorizeG_inv h with ⟨e, _, rfl⟩ | ⟨I, h⟩
  · rcases authorizeG_inv h2 with ⟨_, e2, _⟩ | ⟨J, h3⟩
    · exact e2
    · unfold authorizeG at h2
      rw [e] at h2; cases h2; rfl
  · have h' : w.implicitTenants o fuel (site ++ [.int 0]) p = .ok (I, w') := by rw [← implicitTenantsG_eq, h]; rfl
    exact C134_cached (implicitTenants_inv (MOp.reachable_inv hr) h').2.2.1 h2

end Mgr

/-! ## A hierarchy with many walks -/

/-- "top", whose descendants the principal "p" manages. -/
def dagBaseOps : List MOp := [.newTenant (str "top"), .addTenant 0, .addPrincipal (str "p") 0, .role (.newRole (str "r")), .addRole 0,
  .tAddPrincipalWithRole 0 (str "p") (str "r") true]

/-- Tenants "a", "aa", ...; each has all the ones before as descendants and is a descendant of "top". -/
def dagOps : Nat → List MOp
  | 0 => dagBaseOps
  | n + 1 => dagOps n ++ [.newTenant (chainId (n + 1)), .addTenant (n + 1), .tAddDescendant (n + 1) ((List.range n).map (· + 1)),
      .tAddDescendant 0 [n + 1]]

def dagBase : Mgr := match MOp.run {} dagBaseOps with
  | .ok w => w
  | _ => {}

/-- The links to the first `n`. -/
def dagLinks (n : Nat) : GoMap Str Nat := (List.range n).map fun i => (chainId (i + 1), i + 1)

def dagObj (i : Nat) : TenantObj := { id := chainId (i + 1), desc := dagLinks i, managed := true }

def dagState (n : Nat) : Mgr :=
  { dagBase with
    tobjs := { id := str "top", desc := dagLinks n, managed := true } :: (List.range n).map dagObj
    tenants := (str "top", 0) :: dagLinks n }

theorem chainId_inj {i j : Nat} (h : chainId i = chainId j) : i = j := by
  have := congrArg List.length h
  simpa [chainId] using this

theorem dagLinks_keys (n : Nat) : (dagLinks n).map (·.1) = (List.range n).map fun i => chainId (i + 1) := by
  simp [dagLinks]

theorem dagLinks_nodup (n : Nat) : ((dagLinks n).map (·.1)).Nodup := by
  rw [dagLinks_keys]
  refine List.Nodup.map (fun i j h => ?_) List.nodup_range
  have := chainId_inj h
  omega

theorem dagLinks_new (n : Nat) : (dagLinks n).get (chainId (n + 1)) = none := by
  rw [GoMap.get_none_iff, dagLinks_keys]
  intro h
  obtain ⟨i, hi, e⟩ := List.mem_map.1 h
  have := chainId_inj e
  have := List.mem_range.1 hi
  omega

theorem set_append {m : GoMap Str Nat} {k : Str} {x : Nat} (h : m.get k = none) : m.set k x = m ++ [(k, x)] := by
  induction m with
  | nil => rfl
  | cons e m ih =>
    obtain ⟨a, y⟩ := e
    unfold GoMap.get at h
    split at h
    · cases h
    · rename_i hk
      rw [GoMap.set, if_neg hk, ih h]; rfl

theorem dagLinks_succ (n : Nat) : dagLinks (n + 1) = dagLinks n ++ [(chainId (n + 1), n + 1)] := by
  simp [dagLinks, List.range_succ]

theorem top_ne (n : Nat) : str "top" ≠ chainId n := by
  intro h
  have : (116 : UInt8) ∈ chainId n := by rw [← h]; decide
  have := List.eq_of_mem_replicate this
  exact absurd this (by decide)

/-- Adding descendants with new ids to a tenant without default namespace. -/
theorem addDesc_all {ds : List Nat} {w : Mgr} {c : Nat} {ct : TenantObj} (hc : w.tobjs[c]? = some ct) (hn : ct.defNs = none) {ids : Nat → Str}
    (hds : ∀ d ∈ ds, d ≠ c ∧ ∃ dt, w.tobjs[d]? = some dt ∧ dt.id = ids d) (hf : ∀ d ∈ ds, ct.desc.get (ids d) = none)
    (hd : (ds.map ids).Nodup) :
    w.tAddDescendant c ds = .ok { w with tobjs := w.tobjs.set c { ct with desc := ct.desc ++ ds.map fun d => (ids d, d) } } := by
  induction ds generalizing w ct with
  | nil =>
    rw [Mgr.tAddDescendant]
    have : w.tobjs.set c { ct with desc := ct.desc ++ ([] : List Nat).map fun d => (ids d, d) } = w.tobjs := by
      rw [List.map_nil, List.append_nil]
      obtain ⟨h, rfl⟩ := List.getElem?_eq_some_iff.1 hc
      exact List.set_getElem_self h
    rw [this]
  | cons d ds ih =>
    obtain ⟨cid, cdesc, cdef, cman⟩ := ct
    cases hn
    obtain ⟨hne, dt, h1, h2⟩ := hds d (by simp)
    rw [List.map_cons, List.nodup_cons] at hd
    have hf' := hf d (by simp)
    rw [← h2] at hf'
    rw [Mgr.tAddDescendant, hc, h1]
    simp only [hf', Option.isSome_none, Bool.false_eq_true, if_false]
    have hlt : c < w.tobjs.length := by
      rcases Nat.lt_or_ge c w.tobjs.length with h | h
      · exact h
      · rw [List.getElem?_eq_none h] at hc; cases hc
    rw [ih (w := { w with tobjs := w.tobjs.set c { id := cid, desc := cdesc.set dt.id d, managed := cman } })
      (ct := { id := cid, desc := cdesc.set dt.id d, managed := cman }) (by rw [List.getElem?_set_self hlt]) rfl ?_ ?_ hd.2]
    · rw [show cdesc.set dt.id d = cdesc ++ [(dt.id, d)] from set_append hf']
      simp only [List.set_set, h2, List.append_assoc, List.map_cons, List.cons_append, List.nil_append]
    · intro x hx
      obtain ⟨a, xt, b, c'⟩ := hds x (by simp [hx])
      exact ⟨a, xt, by rw [List.getElem?_set_ne (Ne.symm a)]; exact b, c'⟩
    · intro x hx
      rw [GoMap.get_set, if_neg]
      · exact hf x (by simp [hx])
      rw [h2]
      intro e
      exact hd.1 (List.mem_map.2 ⟨x, hx, e.symm⟩)

theorem dag_obj {n i : Nat} (hi : i < n) : (dagState n).tobjs[i + 1]? = some (dagObj i) := by
  show ({ id := str "top", desc := dagLinks n, managed := true } :: (List.range n).map dagObj)[i + 1]? = _
  rw [List.getElem?_cons_succ, List.getElem?_map, List.getElem?_range hi]; rfl

theorem dag_len (n : Nat) : (dagState n).tobjs.length = n + 1 := by
  show ({ id := str "top", desc := dagLinks n, managed := true } :: (List.range n).map dagObj).length = _
  simp

theorem dag_run (n : Nat) : MOp.run {} (dagOps n) = .ok (dagState n) := by
  induction n with
  | zero => rfl
  | succ n ih =>
    rw [dagOps, MOp.run_append, ih, Out.bind_ok]
    have hl := dag_len n
    have e1 : ∀ x : TenantObj, ((dagState n).tobjs ++ [x])[n + 1]? = some x := fun x => by
      rw [List.getElem?_append_right (by omega), hl]; simp
    have s1 : ∀ x y : TenantObj, ((dagState n).tobjs ++ [x]).set (n + 1) y = (dagState n).tobjs ++ [y] := fun x y => by
      have := set_last (dagState n).tobjs x y
      rwa [hl] at this
    have ht : (dagState n).tenants.get (chainId (n + 1)) = none := by
      show GoMap.get ((str "top", 0) :: dagLinks n) _ = none
      unfold GoMap.get
      rw [if_neg (top_ne _)]
      exact dagLinks_new n
    have step1 : (MOp.newTenant (chainId (n + 1))).apply (dagState n) =
        .ok { dagState n with tobjs := (dagState n).tobjs ++ [{ id := chainId (n + 1) }] } := rfl
    have step2 : (MOp.addTenant (n + 1)).apply { dagState n with tobjs := (dagState n).tobjs ++ [{ id := chainId (n + 1) }] } =
        .ok { dagState n with
          tobjs := (dagState n).tobjs ++ [{ id := chainId (n + 1), managed := true }]
          tenants := (str "top", 0) :: dagLinks (n + 1) } := by
      simp only [MOp.apply, Mgr.addTenant, e1, s1, register, ht, Out.map_ok, set_append ht]
      rw [dagLinks_succ]; rfl
    have step3 : (MOp.tAddDescendant (n + 1) ((List.range n).map (· + 1))).apply { dagState n with
          tobjs := (dagState n).tobjs ++ [{ id := chainId (n + 1), managed := true }]
          tenants := (str "top", 0) :: dagLinks (n + 1) } =
        .ok { dagState n with
          tobjs := (dagState n).tobjs ++ [dagObj n]
          tenants := (str "top", 0) :: dagLinks (n + 1) } := by
      show Mgr.tAddDescendant _ _ _ = _
      rw [addDesc_all (ids := chainId) (e1 _) rfl ?_ (fun _ _ => rfl) ?_]
      · simp only [s1, List.map_map]
        rfl
      · intro d hd
        obtain ⟨i, hi, rfl⟩ := List.mem_map.1 hd
        have hi := List.mem_range.1 hi
        refine ⟨by omega, dagObj i, ?_, rfl⟩
        show ((dagState n).tobjs ++ [_])[i + 1]? = _
        rw [List.getElem?_append_left (by omega), dag_obj hi]
      · rw [List.map_map]
        have := dagLinks_nodup n
        rwa [dagLinks_keys] at this
    have step4 : (MOp.tAddDescendant 0 [n + 1]).apply { dagState n with
          tobjs := (dagState n).tobjs ++ [dagObj n]
          tenants := (str "top", 0) :: dagLinks (n + 1) } = .ok (dagState (n + 1)) := by
      show Mgr.tAddDescendant _ _ _ = _
      rw [addDesc_all (ids := chainId) (ct := { id := str "top", desc := dagLinks n, managed := true }) rfl rfl ?_ ?_ (by simp)]
      · have key : ((dagState n).tobjs ++ [dagObj n]).set 0 { id := str "top", desc := dagLinks n ++ [(chainId (n + 1), n + 1)], managed := true } =
            (dagState (n + 1)).tobjs := by
          rw [← dagLinks_succ]
          show _ :: _ = _ :: (List.range (n + 1)).map dagObj
          rw [List.range_succ, List.map_append]; rfl
        have all : dagState (n + 1) = { dagState n with
          tobjs := (dagState (n + 1)).tobjs
          tenants := (str "top", 0) :: dagLinks (n + 1) } := rfl
        rw [all, ← key]; rfl
      · intro d hd
        cases List.mem_singleton.1 hd
        exact ⟨by omega, dagObj n, e1 _, rfl⟩
      · intro d hd
        cases List.mem_singleton.1 hd
        exact dagLinks_new n
    simp only [MOp.run, step1, Out.bind_ok, step2, step3, step4]

theorem dag_kids {n i : Nat} (hi : i < n) : tenantKids (dagState n) (i + 1) = (List.range i).map (· + 1) := by
  unfold tenantKids
  rw [dag_obj hi]
  simp [dagObj, dagLinks]

theorem dag_top (n : Nat) : tenantKids (dagState n) 0 = (List.range n).map (· + 1) := by
  show List.map (·.2) (dagLinks n) = _
  simp [dagLinks]

theorem dag_geo {n i H : Nat} (hi : i < n) (hH : i ≤ H) : 1 + geo (tenantKids (dagState n)) 1 (fun _ => 1) H (i + 1) = 2 ^ i := by
  induction H generalizing i with
  | zero => cases i with
    | zero => rfl
    | succ i => omega
  | succ H ih =>
    rw [geo, dag_kids hi, List.map_map, ← sum_pow i]
    congr 1
    refine sum_congr fun j hj => ?_
    have := List.mem_range.1 hj
    simp only [Function.comp, Nat.one_mul]
    exact ih (by omega) (by omega)

theorem dag_walks {n i k : Nat} (hi : i < n) (hk : i < k) : walks (tenantKids (dagState n)) k (i + 1) = 0 := by
  induction k generalizing i with
  | zero => omega
  | succ k ih =>
    show ((tenantKids (dagState n) (i + 1)).map (walks (tenantKids (dagState n)) k)).sum = 0
    rw [dag_kids hi, ← sum_zero (List.range i), List.map_map]
    refine sum_congr fun j hj => ?_
    have := List.mem_range.1 hj
    exact ih (by omega) (by omega)

theorem dag_high (n : Nat) : walks (tenantKids (dagState n)) (n + 1) 0 = 0 := by
  show ((tenantKids (dagState n) 0).map (walks (tenantKids (dagState n)) n)).sum = 0
  rw [dag_top, ← sum_zero (List.range n), List.map_map]
  refine sum_congr fun j hj => ?_
  have := List.mem_range.1 hj
  exact dag_walks (by omega) (by omega)

theorem dag_total (n : Nat) : (sumTo (n + 1) fun k => walks (tenantKids (dagState n)) k 0) = 2 ^ n := by
  have h1 : 1 + geo (tenantKids (dagState n)) 1 (fun _ => 1) n 0 = 2 ^ n := by
    cases n with
    | zero => rfl
    | succ n =>
      rw [geo, dag_top, List.map_map, ← sum_pow (n + 1)]
      congr 1
      refine sum_congr fun j hj => ?_
      have := List.mem_range.1 hj
      simp only [Function.comp, Nat.one_mul]
      exact dag_geo (by omega) (by omega)
  rw [geo_eq] at h1
  rw [sumTo_succ, ← h1]
  simp only [Nat.one_pow, Nat.one_mul]
  rfl

theorem dag_stored {n : Nat} {row : Data} (h : Stored (dagState n) row) :
    row = { tenant := .str (str "top"), principal := .str (str "p"), role := .str (str "r"), manage := .bool true } := by
  have : Stored dagBase row := h
  have e : survivors (rowKey dataKeys) dagBase.log =
    [{ tenant := .str (str "top"), principal := .str (str "p"), role := .str (str "r"), manage := .bool true }] := by decide +kernel
  unfold Stored at this
  rw [e] at this
  exact List.mem_singleton.1 this

theorem dag_acc {n : Nat} : Acc (fun d c => TChild (dagState n).tobjs c d) 0 := by
  have h1 : ∀ i, i < n → Acc (fun d c => TChild (dagState n).tobjs c d) (i + 1) := by
    intro i
    induction i using Nat.strongRecOn with
    | _ i ih =>
      intro hi
      refine ⟨_, fun d hd => ?_⟩
      obtain ⟨t, k, h2, h3⟩ := hd
      rw [dag_obj hi] at h2
      cases h2
      obtain ⟨j, hj, e⟩ := List.mem_map.1 h3
      cases e
      have := List.mem_range.1 hj
      exact ih j this (by omega)
  refine ⟨_, fun d hd => ?_⟩
  obtain ⟨t, k, h2, h3⟩ := hd
  cases h2
  obtain ⟨j, hj, e⟩ := List.mem_map.1 h3
  cases e
  exact h1 j (List.mem_range.1 hj)

/-- C134: with `n + 1` tenants and one row the first decision can make exactly `2 ^ n` calls, whatever the order of maps. -/
theorem C134_dag (n : Nat) : ∃ w, MOp.run {} (dagOps n) = .ok w ∧ w.tobjs.length = n + 1 ∧ w.log.length = 1 ∧
    ∃ m, ∀ fuel ≥ m, ∀ o site, ∃ b w', w.authorizeG o fuel site (str "p") [.tenant (.str (str "top"))] = .ok ((b, w'), 2 ^ n) := by
  refine ⟨dagState n, dag_run n, dag_len n, rfl, ?_⟩
  have inv := MOp.reachable_inv (dag_run n)
  obtain ⟨m, hm⟩ := C27_C28_returns inv (p := str "p") (opts := [.tenant (.str (str "top"))])
    { rows := fun row hr _ _ => by rw [dag_stored hr]; exact ⟨_, rfl⟩
      links := fun a c ha hc => by
        obtain ⟨row, h1, _, h2, _⟩ := ha
        rw [dag_stored h1] at h2
        cases h2
        cases hc
        exact dag_acc
      tenant := .inr ⟨_, rfl⟩
      namespace_ := .inl rfl
      scope := .inl rfl
      act := fun h => absurd rfl h.1 }
  refine ⟨m, fun fuel hf o site => ?_⟩
  obtain ⟨b, w', h⟩ := hm fuel hf o site
  rw [← C134_counted] at h
  obtain ⟨⟨⟨b1, w1⟩, g⟩, h1, h2⟩ := Out.map_eq_ok.1 h
  cases h2
  refine ⟨b, w', ?_⟩
  rw [h1]
  have := C134_first (dag_run n) (t := str "top") (c := 0) rfl (dag_high n) (p := str "p") rfl rfl rfl
    ⟨{ tenant := .str (str "top"), principal := .str (str "p"), role := .str (str "r"), manage := .bool true },
      (by show _ ∈ survivors (rowKey dataKeys) dagBase.log; decide +kernel), rfl, rfl, rfl⟩
    (fun row hr _ _ => by rw [dag_stored hr]; exact ⟨rfl, rfl⟩) h1
  rw [this, dag_total]

/-! ## C134 as intended -/

/-- C134 as intended: the calls of one decision are bounded by a polynomial in the number of tenants and of rows. -/
def C134_full : Prop := ∃ k, ∀ ops w o fuel site p opts b w' g, MOp.run {} ops = .ok w →
  w.authorizeG o fuel site p opts = .ok ((b, w'), g) → g ≤ (w.tobjs.length + w.log.length + k) ^ k

theorem C134_full_false : ¬ C134_full := by
  rintro ⟨k, hk⟩
  obtain ⟨n, hn⟩ := pow_beats (k + 1)
  obtain ⟨w, h1, h2, h3, m, h4⟩ := C134_dag n
  obtain ⟨b, w', h5⟩ := h4 m (Nat.le_refl _) .fwd []
  have := hk _ w _ _ _ _ _ _ _ _ h1 h5
  rw [h2, h3] at this
  have h6 : (n + 1 + 1 + k) ^ k ≤ (n + 1 + (k + 1)) ^ (k + 1) := by
    rw [show n + 1 + (k + 1) = n + 1 + 1 + k from by omega]
    exact Nat.pow_le_pow_right (by omega) (by omega)
  omega

section
variable {w w' : Mgr} {o : Ord} {fuel : Nat} {site : List Val} {p : Str} {opts : List Opt} {b : Bool} {g : Nat}

theorem managed_length {ts : List Str} (hn : ts.Nodup) (hm : ∀ t ∈ ts, Manages w p t) : ts.length ≤ w.log.length := by
  have h1 : (ts.map Val.str).length ≤ (w.log.map (·.tenant)).length := by
    refine (List.subperm_of_subset (List.Nodup.map (fun a b e => by cases e; rfl) hn) fun v hv => ?_).length_le
    obtain ⟨t, ht, rfl⟩ := List.mem_map.1 hv
    obtain ⟨row, h1, _, h2, _⟩ := hm t ht
    exact List.mem_map.2 ⟨row, List.mem_of_mem_filter (List.mem_of_getLast? (survivors_mem.1 h1)), h2⟩
  simpa using h1

theorem listed_bound {ops : List MOp} (hr : MOp.run {} ops = .ok w) (h : w.authorizeG o fuel site p opts = .ok ((b, w'), g)) {B : Nat}
    (hB : ∀ c site ds, w.descendants o fuel site c = .ok ds → 1 + ds.length ≤ B) : g ≤ w.log.length * B := by
  have inv := MOp.reachable_inv hr
  obtain ⟨ts, h1, h2, rfl⟩ := Mgr.authorizeG_listed hr h
  refine Nat.le_trans ?_ (Nat.mul_le_mul_right B (managed_length h1 (fun t ht => (h2 t ht).1)))
  have : (ts.map (listingCalls w fuel)).sum ≤ (ts.map fun _ => B).sum := by
    refine sum_le fun t ht => ?_
    unfold listingCalls
    cases hc : w.tenants.get t with
    | none => exact Nat.zero_le _
    | some c =>
      obtain ⟨s, ds, hds⟩ := (h2 t ht).2.2.2 c hc
      simp only
      rw [← Mgr.descendants_length inv hds (Mgr.descendants_walks inv hds)]
      exact hB c s ds hds
  refine Nat.le_trans this ?_
  simp

/-- C134: where every tenant is a direct descendant of one tenant at most, a decision makes no more calls than there are rows times tenants.
Missing: tenants with several parents, for which no polynomial bound holds. -/
theorem C134_tree_partial {ops : List MOp} (hr : MOp.run {} ops = .ok w) (h : w.authorizeG o fuel site p opts = .ok ((b, w'), g))
    (tree : ∀ x y d, TChild w.tobjs x d → TChild w.tobjs y d → x = y) : g ≤ w.log.length * w.tobjs.length := by
  have inv := MOp.reachable_inv hr
  refine listed_bound hr h fun c site ds hds => ?_
  rw [Mgr.descendants_eq inv] at hds
  obtain ⟨es, h1, rfl⟩ := Out.map_eq_ok.1 hds
  have hchild : ∀ {x d}, Child w.tlinks x d → TChild w.tobjs x d := by
    rintro x d ⟨ro, k, h2, h3⟩
    simp only [Mgr.tlinks, List.getElem?_map, Option.map_eq_some_iff] at h2
    obtain ⟨t, h4, rfl⟩ := h2
    exact ⟨t, k, h4, h3⟩
  have hlt : ∀ {x d}, Child w.tlinks x d → d < w.tobjs.length := by
    intro x d hc
    obtain ⟨t, k, h2, h3⟩ := hchild hc
    obtain ⟨dt, h4, _⟩ := inv.desc t (List.mem_of_getElem? h2) _ h3
    exact RHeap.lt_of_get h4
  have hlt' : ∀ {x d}, Desc w.tlinks x d → d < w.tobjs.length := by
    intro x d hd
    induction hd with
    | child hc => exact hlt hc
    | step _ _ ih => exact ih
  have hn : es.Nodup := C123_tree_partial (fun x y d hx hy => tree x y d (hchild hx) (hchild hy)) (by
    intro a
    rw [Mgr.tlinks_kids]
    unfold tenantKids
    cases ha : w.tobjs[a]? with
    | none => simp
    | some t =>
      have hm := List.mem_of_getElem? ha
      refine List.Nodup.of_map (fun d => ((w.tobjs[d]?).map (·.id)).getD []) ?_
      rw [List.map_map]
      have e : t.desc.map ((fun d => ((w.tobjs[d]?).map (·.id)).getD []) ∘ (·.2)) = t.desc.map (·.1) := by
        refine List.map_congr_left fun e he => ?_
        obtain ⟨d, h2, h3⟩ := inv.desc t hm e he
        simp only [Function.comp, h2, Option.map_some, Option.getD_some, h3]
      rw [e]
      exact inv.descWF t hm) h1
  have hc : c ∉ es := fun hc => not_acc_of_desc_self ((RHeap.descRoles_mem h1 c).1 hc) (RHeap.descRoles_acc h1)
  have hcl : c < w.tobjs.length := by
    cases fuel with
    | zero => cases h1
    | succ n =>
      rw [RHeap.descRoles_succ] at h1
      cases hr : w.tlinks.roles[c]? with
      | none => rw [hr] at h1; cases h1
      | some ro =>
        have := RHeap.lt_of_get hr
        simpa [Mgr.tlinks] using this
  have : (c :: es).length ≤ (List.range w.tobjs.length).length := by
    refine (List.subperm_of_subset (List.nodup_cons.2 ⟨hc, hn⟩) fun d hd => List.mem_range.2 ?_).length_le
    rcases List.mem_cons.1 hd with rfl | hd
    · exact hcl
    · exact hlt' ((RHeap.descRoles_mem h1 d).1 hd)
  rw [List.length_cons, List.length_range] at this
  rw [List.length_map]
  omega

theorem geo_bound1 {kids : Nat → List Nat} {N : Nat} (hN : ∀ d, (kids d).length ≤ N) (H r : Nat) :
    1 + geo kids 1 (fun _ => 1) H r ≤ (N + 1) ^ H := by
  induction H generalizing r with
  | zero => exact Nat.le_refl _
  | succ H ih =>
    have h1 : geo kids 1 (fun _ => 1) (H + 1) r ≤ (kids r).length * (N + 1) ^ H := by
      rw [geo]
      induction kids r with
      | nil => simp
      | cons a l ihl =>
        have := ih a
        rw [List.map_cons, List.sum_cons, List.length_cons, Nat.succ_mul l.length]
        omega
    have h2 := Nat.mul_le_mul_right ((N + 1) ^ H) (hN r)
    have h3 : (N + 1) ^ (H + 1) = N * (N + 1) ^ H + (N + 1) ^ H := by
      rw [Nat.pow_succ, Nat.mul_comm, Nat.add_mul, Nat.one_mul]
    have h4 : 1 ≤ (N + 1) ^ H := Nat.pos_of_ne_zero (by simp)
    omega

/-- C134: if no tenant has more than `N` direct descendants and no walk has more than `H` links, a decision makes at most `(N + 1) ^ H` calls
for each row.  Missing: a bound that does not grow exponentially with the height, which is false. -/
theorem C134_height_partial {ops : List MOp} (hr : MOp.run {} ops = .ok w) (h : w.authorizeG o fuel site p opts = .ok ((b, w'), g))
    {N H : Nat} (hN : ∀ c, (tenantKids w c).length ≤ N) (hH : ∀ c, walks (tenantKids w) (H + 1) c = 0) : g ≤ w.log.length * (N + 1) ^ H := by
  refine listed_bound hr h fun c site ds hds => ?_
  rw [Mgr.descendants_length (MOp.reachable_inv hr) hds (hH c), sumTo_succ]
  have := geo_bound1 hN H c
  rw [geo_eq] at this
  simp only [Nat.one_pow, Nat.one_mul] at this
  exact this

end

/-- C134: "top", "a", "aa", "aaa": the first decision makes eight calls, the second none; a tree of four tenants: four calls. -/
example : (∃ w, MOp.run {} (dagOps 3) = .ok w ∧
    ((w.authorizeG .fwd 9 [] (str "p") [.tenant (.str (str "top"))]).Chk fun x => x.1.1 = true ∧ x.2 = 8 ∧
      (x.1.2.authorizeG .rev 9 [] (str "p") [.tenant (.str (str "aa"))]).Chk fun y => y.2 = 0)) ∧
    (∃ w, MOp.run {} (dagBaseOps ++ [.newTenant (str "a"), .newTenant (str "b"), .newTenant (str "c"), .addTenant 1,
        .tAddDescendant 0 [1, 2], .tAddDescendant 1 [3]]) = .ok w ∧
      ((w.authorizeG .fwd 9 [] (str "p") [.tenant (.str (str "top"))]).Chk fun x => x.2 = 4) ∧
      ∀ x < 4, ∀ y < 4, ∀ d ∈ tenantKids w x, d ∈ tenantKids w y → x = y) := by
  constructor
  · exact Out.chk_ok (by decide +kernel)
  · exact Out.chk_ok (by decide +kernel)

end Verif
