import Verif.Props.RecoverWhen
import Verif.Props.V1RecoverWhen

/-!
# Which requests to the root `Authorize` panic (C118)

For managers whose rows carry roles that are strings: rows with other roles come only from `AddData`.
-/

namespace Verif
namespace RP

open Spec

variable {w w' : Mgr}

/-- A value that is there and no string. -/
def NoString (v : Val) : Prop := v ≠ .nil ∧ ∀ s, v ≠ .str s

/-- The first resource of the request that is not registered is not even a string. -/
def WrongResource (w : Mgr) (r : Request) : Prop :=
  NoString r.tenant ∨ (Known w.tenants r.tenant ∧ NoString r.namespace_) ∨ (Known w.tenants r.tenant ∧ Known w.namespaces r.namespace_ ∧ NoString r.scope)

/-- A registered role would be asked about a group or an activity that is not a string. -/
def WrongActivity (w : Mgr) (p : Str) (I : List Str) (r : Request) : Prop :=
  Resources w r ∧ HasActivity r ∧ (NoString r.group ∨ NoString r.activity) ∧ ∃ c, (c = r.tenant ∨ ∃ t ∈ I, c = .str t) ∧
    ∃ row role a, Stored w row ∧ RoleRow w p c r row ∧ row.role = .str role ∧ (role, a) ∈ w.roles

theorem bind_panic_iff {α β : Type} {x : Out α} {f : α → Out β} : x.bind f = .panic ↔ x = .panic ∨ ∃ a, x = .ok a ∧ f a = .panic := by
  cases x with
  | ok a => exact ⟨fun h => .inr ⟨a, rfl, h⟩, fun h => h.elim (fun h => by cases h) fun ⟨_, e, h⟩ => by cases e; exact h⟩
  | panic => exact ⟨fun _ => .inl rfl, fun _ => rfl⟩
  | diverge => exact ⟨fun h => (by cases h), fun h => h.elim (fun h => by cases h) fun ⟨_, e, _⟩ => by cases e⟩

theorem noString_iff {v : Val} : NoString v ↔ ¬ (v = .nil ∨ ∃ s, v = .str s) := by
  unfold NoString
  constructor
  · rintro ⟨h1, h2⟩ (h | ⟨s, h⟩)
    · exact h1 h
    · exact h2 s h
  · intro h; exact ⟨fun e => h (.inl e), fun s e => h (.inr ⟨s, e⟩)⟩

theorem validOne_panic {m : GoMap Str Nat} {v : Val} : Mgr.validOne m v = .panic ↔ NoString v := by
  cases v <;> simp [Mgr.validOne, NoString]

theorem validOne_true {m : GoMap Str Nat} {v : Val} (wf : GoMap.WF m) : Mgr.validOne m v = .ok true ↔ Known m v := by
  constructor
  · intro h; exact (Mgr.validOne_spec wf h).1 rfl
  · intro h
    obtain ⟨b, hb⟩ := Mgr.validOne_total (m := m) (v := v) (h.imp_right fun ⟨s, _, e, _⟩ => ⟨s, e⟩)
    rw [hb, (Mgr.validOne_spec wf hb).2 h]

theorem validate_panic (inv : w.Inv) {r : Request} : w.validateResources r = .panic ↔ WrongResource w r := by
  unfold Mgr.validateResources WrongResource
  rw [bind_panic_iff, validOne_panic]
  refine or_congr_right ?_
  constructor
  · rintro ⟨a, h1, h2⟩
    cases a with
    | false => cases h2
    | true =>
      rw [if_pos rfl, bind_panic_iff, validOne_panic] at h2
      rcases h2 with h2 | ⟨b, h2, h3⟩
      · exact .inl ⟨(validOne_true inv.regT).1 h1, h2⟩
      · cases b with
        | false => cases h3
        | true =>
          rw [if_pos rfl, validOne_panic] at h3
          exact .inr ⟨(validOne_true inv.regT).1 h1, (validOne_true inv.regN).1 h2, h3⟩
  · rintro (⟨h1, h2⟩ | ⟨h1, h2, h3⟩)
    · refine ⟨true, (validOne_true inv.regT).2 h1, ?_⟩
      rw [if_pos rfl, validOne_panic.2 h2]; rfl
    · refine ⟨true, (validOne_true inv.regT).2 h1, ?_⟩
      rw [if_pos rfl, (validOne_true inv.regN).2 h2, Out.bind_ok, if_pos rfl, validOne_panic.2 h3]

/-- Asking roles about something that is not a string. -/
theorem roles_wrong {o : Ord} {fuel : Nat} {site : List Val} {r : Request} {l allowed : List Str} {i : Nat} (hb : NoString r.group ∨ NoString r.activity) :
    w.roleLoop o fuel site r i allowed l = .panic ∧ (∃ x ∈ l, ∃ a, w.roles.get x = some a) ∨
    w.roleLoop o fuel site r i allowed l = .ok false ∧ ¬ ∃ x ∈ l, ∃ a, w.roles.get x = some a := by
  induction l generalizing i with
  | nil => exact .inr ⟨rfl, fun ⟨_, h, _⟩ => by cases h⟩
  | cons x l ih =>
    rw [Mgr.roleLoop]
    cases hx : w.roles.get x with
    | some a =>
      refine .inl ⟨?_, x, List.mem_cons_self .., a, hx⟩
      dsimp only
      split
      · rename_i e1 e2
        rcases hb with h | h
        · exact absurd e1 (h.2 _)
        · exact absurd e2 (h.2 _)
      · rfl
    | none =>
      dsimp only
      rcases ih (i := i + 1) with ⟨h1, y, hy, h2⟩ | ⟨h1, h2⟩
      · exact .inl ⟨h1, y, List.mem_cons_of_mem _ hy, h2⟩
      · refine .inr ⟨h1, ?_⟩
        rintro ⟨y, hy, a, ha⟩
        rcases List.mem_cons.1 hy with rfl | hy
        · rw [hx] at ha; cases ha
        · exact h2 ⟨y, hy, a, ha⟩

theorem roles_right (inv : w.Inv) {o : Ord} {fuel : Nat} {site : List Val} {r : Request} {l : List Str} {i : Nat} {g act : Str}
    (h1 : r.group = .str g) (h2 : r.activity = .str act) : w.roleLoop o fuel site r i [] l ≠ .panic := by
  induction l generalizing i with
  | nil => intro h; cases h
  | cons x l ih =>
    rw [Mgr.roleLoop]
    cases hx : w.roles.get x with
    | none => exact ih
    | some a =>
      obtain ⟨ro, hro, _⟩ := inv.roles _ _ hx
      simp only [h1, h2]
      intro h
      rcases bind_panic_iff.1 h with h | ⟨b, _, h⟩
      · exact RV.has_ne_panic inv.heap (RHeap.lt_of_get hro) h
      · split at h
        · cases h
        · exact ih h

/-- A registered role is on a row consulted in tenant `c`. -/
def Consults (w : Mgr) (p : Str) (c : Val) (r : Request) : Prop :=
  ∃ row role a, Stored w row ∧ RoleRow w p c r row ∧ row.role = .str role ∧ (role, a) ∈ w.roles

theorem check_wrong (inv : w.Inv) (hs : Mgr.StrRoles w) {o : Ord} {fuel : Nat} {site : List Val} {p : Str} {r : Request} {c : Val} (hc : c ≠ .nil ∨ r.tenant = .nil)
    (ha : HasActivity r) (hb : NoString r.group ∨ NoString r.activity) :
    w.check o fuel site p { r with tenant := c } (flagsOf r) = .panic ∧ Consults w p c r ∨
    w.check o fuel site p { r with tenant := c } (flagsOf r) = .ok false ∧ ¬ Consults w p c r := by
  have hn : (flagsOf r).noActivity = false := by simp [flagsOf, ha.1, ha.2]
  unfold Mgr.check
  rw [hn]
  simp only [Bool.false_eq_true, if_false]
  rw [Mgr.checkActivity_eq, if_neg (show ({ r with tenant := c } : Request).group ≠ .nil from ha.1),
    if_neg (show ({ r with tenant := c } : Request).activity ≠ .nil from ha.2)]
  obtain ⟨x, hx⟩ := Mgr.selected_total (o := o) inv hs (site := site) (p := p) (r := { r with tenant := c }) (f := flagsOf r)
  have hsp := (Mgr.selected_spec inv hc hx).2
  rw [hx, Out.bind_ok]
  have key : (∃ s ∈ slicesCompact x.1, ∃ a, w.roles.get s = some a) ↔ Consults w p c r := by
    constructor
    · rintro ⟨s, h1, a, h2⟩
      obtain ⟨row, h3, h4, h5⟩ := (hsp s).1 (Mgr.mem_slicesCompact.1 h1)
      exact ⟨row, s, a, h3, h5, h4, GoMap.get_some_mem h2⟩
    · rintro ⟨row, s, a, h3, h5, h4, h2⟩
      exact ⟨s, Mgr.mem_slicesCompact.2 ((hsp s).2 ⟨row, h3, h4, h5⟩), a, (GoMap.mem_iff_get inv.regR).1 h2⟩
  split
  · rename_i h0
    refine .inr ⟨rfl, fun h => ?_⟩
    obtain ⟨s, h1, _⟩ := key.2 h
    rw [List.eq_nil_of_length_eq_zero h0] at h1; cases h1
  · rcases roles_wrong (w := w) (o := o) (fuel := fuel) (site := site ++ [.int 5]) (r := { r with tenant := c }) (l := slicesCompact x.1) (allowed := x.2) (i := 0) hb with ⟨h1, h2⟩ | ⟨h1, h2⟩
    · exact .inl ⟨h1, key.1 h2⟩
    · exact .inr ⟨h1, fun h => h2 (key.2 h)⟩

theorem check_right (inv : w.Inv) (hs : Mgr.StrRoles w) {o : Ord} {fuel : Nat} {site : List Val} {p : Str} {r : Request} {c : Val} (hc : c ≠ .nil ∨ r.tenant = .nil)
    (ha : ¬ (HasActivity r ∧ (NoString r.group ∨ NoString r.activity))) : w.check o fuel site p { r with tenant := c } (flagsOf r) ≠ .panic := by
  unfold Mgr.check
  split
  · intro h; cases h
  · rename_i hn
    have hA : HasActivity r := by simpa [flagsOf, HasActivity] using hn
    obtain ⟨g, hg⟩ : ∃ g, r.group = .str g := by
      refine Classical.byContradiction fun h => ha ⟨hA, .inl ⟨hA.1, fun s e => h ⟨s, e⟩⟩⟩
    obtain ⟨act, hact⟩ : ∃ g, r.activity = .str g := by
      refine Classical.byContradiction fun h => ha ⟨hA, .inr ⟨hA.2, fun s e => h ⟨s, e⟩⟩⟩
    rw [Mgr.checkActivity_eq, if_neg (show ({ r with tenant := c } : Request).group ≠ .nil from hA.1),
      if_neg (show ({ r with tenant := c } : Request).activity ≠ .nil from hA.2)]
    obtain ⟨x, hx⟩ := Mgr.selected_total (o := o) inv hs (site := site) (p := p) (r := { r with tenant := c }) (f := flagsOf r)
    rw [hx, Out.bind_ok, (Mgr.selected_spec inv hc hx).1]
    split
    · intro h; cases h
    · exact roles_right inv (r := { r with tenant := c }) hg hact

theorem fallback_right (inv : w.Inv) (hs : Mgr.StrRoles w) {o : Ord} {fuel : Nat} {site : List Val} {p : Str} {r : Request} {c : Val} {ts : List Str} {i : Nat}
    (ha : ¬ (HasActivity r ∧ (NoString r.group ∨ NoString r.activity))) : w.fallback o fuel site p (flagsOf r) i { r with tenant := c } ts ≠ .panic := by
  induction ts generalizing c i with
  | nil => intro h; cases h
  | cons t ts ih =>
    rw [Mgr.fallback]
    split
    · exact ih
    · intro h
      rcases bind_panic_iff.1 h with h | ⟨b, _, h⟩
      · exact check_right inv hs (c := .str t) (.inl (by simp)) ha h
      · split at h
        · cases h
        · exact ih h

theorem fallback_wrong (inv : w.Inv) (hs : Mgr.StrRoles w) {o : Ord} {fuel : Nat} {site : List Val} {p : Str} {r : Request} {c : Val} {ts : List Str} {i : Nat}
    (ha : HasActivity r) (hb : NoString r.group ∨ NoString r.activity) (hc : ∀ t, c = .str t → ¬ Consults w p c r) :
    w.fallback o fuel site p (flagsOf r) i { r with tenant := c } ts = .panic ↔ ∃ t ∈ ts, Consults w p (.str t) r := by
  induction ts generalizing c i with
  | nil => exact ⟨fun h => (by cases h), fun ⟨_, h, _⟩ => by cases h⟩
  | cons t ts ih =>
    have skip : ¬ Consults w p (.str t) r → ((∃ t' ∈ ts, Consults w p (.str t') r) ↔ ∃ t' ∈ t :: ts, Consults w p (.str t') r) := by
      intro hn
      constructor
      · rintro ⟨t', h1, h2⟩; exact ⟨t', List.mem_cons_of_mem _ h1, h2⟩
      · rintro ⟨t', h1, h2⟩
        rcases List.mem_cons.1 h1 with rfl | h1
        · exact absurd h2 hn
        · exact ⟨t', h1, h2⟩
    rw [Mgr.fallback]
    split
    · rename_i h
      have e : c = .str t := by
        rw [Bool.and_eq_true] at h
        exact of_decide_eq_true h.1
      exact (ih hc).trans (skip (e ▸ hc t e))
    · rcases check_wrong inv hs (o := o) (fuel := fuel) (site := site ++ [.int i]) (p := p) (r := r) (c := .str t) (.inl (by simp)) ha hb with ⟨h1, h2⟩ | ⟨h1, h2⟩
      · refine ⟨fun _ => ⟨t, List.mem_cons_self .., h2⟩, fun _ => ?_⟩
        rw [h1]; rfl
      · rw [h1, Out.bind_ok]
        exact (ih (fun t' e => by cases e; exact h2)).trans (skip h2)

/-- C118. If the computation of the tenants of the principal returns `I`, `Authorize` panics exactly if there are some and a resource of the request that is
reached is not a string, or all resources are registered and a registered role would be asked about a group or an activity that is not a string. -/
theorem C118_when_decides (inv : w.Inv) (hs : ∀ row, Stored w row → row.role = .nil ∨ ∃ s, row.role = .str s) {o : Ord} {fuel : Nat} {site : List Val} {p : Str} {opts : List Opt}
    {I : List Str} (hI : w.implicitTenants o fuel (site ++ [.int 0]) p = .ok (I, w')) :
    w.authorize o fuel site p opts = .panic ↔
      (∃ x, (p, x) ∈ w.principals) ∧ I ≠ [] ∧ (WrongResource w (requestOf opts) ∨ WrongActivity w p I (requestOf opts)) := by
  obtain ⟨i1, s1, _⟩ := Mgr.implicitTenants_inv inv hI
  rw [Mgr.authorize_eq, hI]
  have hp : (w.principals.get p).isNone = true ↔ ¬ ∃ x, (p, x) ∈ w.principals := by
    rw [Option.isNone_iff_eq_none]
    constructor
    · rintro h ⟨x, hx⟩; rw [(GoMap.mem_iff_get inv.regP).1 hx] at h; cases h
    · intro h
      cases e : w.principals.get p with
      | none => rfl
      | some x => exact absurd ⟨x, GoMap.get_some_mem e⟩ h
  by_cases hp' : ∃ x, (p, x) ∈ w.principals
  · rw [if_neg (fun h => hp.1 h hp'), Out.bind_ok]
    dsimp only
    generalize requestOf opts = r
    by_cases h0 : I = []
    · subst h0
      exact ⟨fun h => (by cases h), fun h => absurd rfl h.2.1⟩
    · rw [if_neg (fun e => h0 (List.eq_nil_of_length_eq_zero e)), bind_panic_iff, validate_panic i1]
      have w1 : WrongResource w' r ↔ WrongResource w r := by rw [s1]; rfl
      rw [w1]
      have key : (∃ a, w'.validateResources r = .ok a ∧ (if (!a) = true then Out.ok (false, w') else
          (w'.check o fuel (site ++ [.int 1]) p r (flagsOf r)).bind fun b => if b = true then .ok (true, w') else
            (w'.fallback o fuel (site ++ [.int 2]) p (flagsOf r) 0 r (o.ord (site ++ [.int 3]) _ I)).map fun b => (b, w')) = .panic) ↔ WrongActivity w p I r := by
        have hs' : Mgr.StrRoles w' := by rw [s1]; exact hs
        have hmap : ∀ {x : Out Bool}, (x.map fun b => (b, w')) = .panic ↔ x = .panic := by
          intro x; cases x <;> simp [Out.map]
        have hC : ∀ c, Consults w' p c r ↔ Consults w p c r := fun c => by rw [s1]; rfl
        have hR : Resources w' r ↔ Resources w r := by rw [s1]; rfl
        constructor
        · rintro ⟨a, hv, h⟩
          cases a with
          | false => cases h
          | true =>
            have hres := hR.1 ((Mgr.validateResources_spec i1 hv).1 rfl)
            simp only [Bool.not_true, Bool.false_eq_true, if_false] at h
            by_cases ha : HasActivity r ∧ (NoString r.group ∨ NoString r.activity)
            · refine ⟨hres, ha.1, ha.2, ?_⟩
              rcases check_wrong i1 hs' (o := o) (fuel := fuel) (site := site ++ [.int 1]) (p := p) (r := r) (c := r.tenant) (Classical.em _).symm ha.1 ha.2 with ⟨_, h2⟩ | ⟨h1, h2⟩
              · exact ⟨_, .inl rfl, (hC _).1 h2⟩
              · rw [show w'.check o fuel (site ++ [.int 1]) p r (flagsOf r) = _ from h1, Out.bind_ok] at h
                simp only [Bool.false_eq_true, if_false] at h
                obtain ⟨t, ht, hc⟩ := (fallback_wrong i1 hs' (c := r.tenant) ha.1 ha.2 (fun _ _ => h2)).1 (hmap.1 h)
                exact ⟨.str t, .inr ⟨t, (o.perm _ _ _).mem_iff.1 ht, rfl⟩, (hC _).1 hc⟩
            · exfalso
              rcases bind_panic_iff.1 h with h | ⟨b, _, h⟩
              · exact check_right i1 hs' (c := r.tenant) (Classical.em _).symm ha h
              · split at h
                · cases h
                · exact fallback_right i1 hs' (c := r.tenant) ha (hmap.1 h)
        · rintro ⟨hres, ha, hb, c, hc, hcon⟩
          obtain ⟨v, hv⟩ := Mgr.validateResources_total (w := w') (r := r) (hres.1.imp_right fun ⟨s, _, e, _⟩ => ⟨s, e⟩)
            (hres.2.1.imp_right fun ⟨s, _, e, _⟩ => ⟨s, e⟩) (hres.2.2.imp_right fun ⟨s, _, e, _⟩ => ⟨s, e⟩)
          have ht : v = true := (Mgr.validateResources_spec i1 hv).2 (hR.2 hres)
          subst ht
          refine ⟨true, hv, ?_⟩
          simp only [Bool.not_true, Bool.false_eq_true, if_false]
          rcases check_wrong i1 hs' (o := o) (fuel := fuel) (site := site ++ [.int 1]) (p := p) (r := r) (c := r.tenant) (Classical.em _).symm ha hb with ⟨h1, _⟩ | ⟨h1, h2⟩
          · rw [show w'.check o fuel (site ++ [.int 1]) p r (flagsOf r) = _ from h1]; rfl
          · rw [show w'.check o fuel (site ++ [.int 1]) p r (flagsOf r) = _ from h1, Out.bind_ok]
            simp only [Bool.false_eq_true, if_false]
            refine hmap.2 ((fallback_wrong i1 hs' (c := r.tenant) ha hb (fun _ _ => h2)).2 ?_)
            rcases hc with rfl | ⟨t, ht, rfl⟩
            · exact absurd ((hC _).2 hcon) h2
            · exact ⟨t, (o.perm _ _ _).mem_iff.2 ht, (hC _).2 hcon⟩
      rw [key]
      exact ⟨fun h => ⟨hp', h0, h⟩, fun h => h.2.2⟩
  · rw [if_pos (hp.2 hp')]
    exact ⟨fun h => (by cases h), fun h => absurd h.1 hp'⟩

theorem options_strings {opts : List (Option Opt)} (h : none ∉ opts) : ∃ os : List Opt, opts = os.map some := by
  induction opts with
  | nil => exact ⟨[], rfl⟩
  | cons q l ih =>
    cases q with
    | none => exact absurd (List.mem_cons_self ..) h
    | some a =>
      obtain ⟨os, e⟩ := ih fun h' => h (List.mem_cons_of_mem _ h')
      exact ⟨a :: os, by rw [e]; rfl⟩

/-- C118. Exactly when `Authorize` panics, provided the tenants of the principal do not take more than the stack: the principal is registered, and an option is
nil, or no tenants are cached and a row of the principal has a tenant that is not a string, or as said in `C118_when_decides`. -/
theorem C118_when_authorize (inv : w.Inv) (hs : ∀ row, Stored w row → row.role = .nil ∨ ∃ s, row.role = .str s) {o : Ord} {fuel : Nat} {site : List Val} {p : Str}
    {opts : List (Option Opt)} (hd : w.implicitTenants o fuel (site ++ [.int 0]) p ≠ .diverge) :
    (RP.authorize o fuel site p opts w).1 = .panic ↔ (∃ x, (p, x) ∈ w.principals) ∧ (none ∈ opts ∨
      (w.pcache.get p = none ∧ ∃ d, Stored w d ∧ d.principal = .str p ∧ NoString d.tenant) ∨
      ∃ os I v, opts = os.map some ∧ w.implicitTenants o fuel (site ++ [.int 0]) p = .ok (I, v) ∧ I ≠ [] ∧
        (WrongResource w (requestOf os) ∨ WrongActivity w p I (requestOf os))) := by
  cases hp : w.principals.get p with
  | none =>
    rw [C118_when_nil.2 hp]
    refine ⟨fun h => (by cases h), fun ⟨⟨x, hx⟩, _⟩ => ?_⟩
    rw [(GoMap.mem_iff_get inv.regP).1 hx] at hp; cases hp
  | some x =>
    have hp' : ∃ x, (p, x) ∈ w.principals := ⟨x, GoMap.get_some_mem hp⟩
    by_cases hn : none ∈ opts
    · rw [C118_when_nil.1 x hp hn]
      exact ⟨fun _ => ⟨hp', .inl hn⟩, fun _ => rfl⟩
    · obtain ⟨os, rfl⟩ := options_strings hn
      have ha := authorize_agrees (w := w) (o := o) (fuel := fuel) (site := site) (p := p) (opts := os)
      have e1 : (RP.authorize o fuel site p (os.map some) w).1 = .panic ↔ w.authorize o fuel site p os = .panic := by
        cases h : w.authorize o fuel site p os with
        | ok y => rw [h] at ha; rw [show RP.authorize o fuel site p (os.map some) w = _ from ha]; simp
        | panic => rw [h] at ha; rw [show (RP.authorize o fuel site p (os.map some) w).1 = _ from ha]; simp
        | diverge => rw [h] at ha; rw [show (RP.authorize o fuel site p (os.map some) w).1 = _ from ha]; simp
      have hi := implicit_agrees (w := w) (o := o) (fuel := fuel) (site := site ++ [.int 0]) (p := p)
      have hd' : (RP.implicitTenants o fuel (site ++ [.int 0]) p w).1 ≠ .diverge := by
        cases h : w.implicitTenants o fuel (site ++ [.int 0]) p with
        | ok y => rw [h] at hi; rw [show RP.implicitTenants o fuel (site ++ [.int 0]) p w = _ from hi]; simp
        | panic => rw [h] at hi; rw [show (RP.implicitTenants o fuel (site ++ [.int 0]) p w).1 = _ from hi]; simp
        | diverge => exact absurd h hd
      have hbad := C118_when_asked inv hd'
      rw [e1]
      cases h : w.implicitTenants o fuel (site ++ [.int 0]) p with
      | diverge => exact absurd h hd
      | panic =>
        rw [h] at hi
        have hb := hbad.1 hi
        constructor
        · intro _
          obtain ⟨h1, d, h2, h3, h4, h5⟩ := hb
          exact ⟨hp', .inr (.inl ⟨h1, d, h2, h3, h4, h5⟩)⟩
        · intro _
          rw [Mgr.authorize_eq, hp, h]; rfl
      | ok y =>
        obtain ⟨I, v⟩ := y
        rw [C118_when_decides inv hs h]
        constructor
        · rintro ⟨_, h1, h2⟩; exact ⟨hp', .inr (.inr ⟨os, I, v, rfl, rfl, h1, h2⟩)⟩
        · rintro ⟨_, h1 | ⟨h1, d, h2, h3, h4, h5⟩ | ⟨os', I', v', e, e', h1, h2⟩⟩
          · exact absurd h1 hn
          · rw [h] at hi
            have := hbad.2 ⟨h1, d, h2, h3, h4, h5⟩
            rw [show RP.implicitTenants o fuel (site ++ [.int 0]) p w = _ from hi] at this; cases this
          · have : os = os' := List.map_injective_iff.2 (fun _ _ h => Option.some.inj h) e
            subst this; cases e'; exact ⟨hp', h1, h2⟩

/-- C118. Hence requests made of strings do not panic when the rows are made of strings. -/
theorem C118_when_strings (inv : w.Inv) (hs : ∀ row, Stored w row → row.role = .nil ∨ ∃ s, row.role = .str s)
    {o : Ord} {fuel : Nat} {site : List Val} {p : Str} (ht : ∀ row, Stored w row → row.principal = .str p → row.tenant = .nil ∨ ∃ s, row.tenant = .str s)
    {opts : List Opt} (hr : ∀ f ∈ [(requestOf opts).tenant, (requestOf opts).namespace_, (requestOf opts).scope, (requestOf opts).group, (requestOf opts).activity],
      f = .nil ∨ ∃ s, f = .str s) : w.authorize o fuel site p opts ≠ .panic := by
  intro h
  have hI : w.implicitTenants o fuel (site ++ [.int 0]) p ≠ .diverge := by
    intro e
    rw [Mgr.authorize_eq, e] at h
    split at h <;> cases h
  have hf : ∀ {f : Val}, (f = .nil ∨ ∃ s, f = .str s) → ¬ NoString f := fun h h' => noString_iff.1 h' h
  have ha := authorize_agrees (w := w) (o := o) (fuel := fuel) (site := site) (p := p) (opts := opts)
  rw [h] at ha
  obtain ⟨_, h | ⟨_, d, h1, h2, h3⟩ | ⟨os, I, v, e, _, _, h⟩⟩ := (C118_when_authorize inv hs (opts := opts.map some) hI).1 ha
  · obtain ⟨_, _, h⟩ := List.mem_map.1 h; cases h
  · exact hf (ht d h1 h2) h3
  · have : opts = os := List.map_injective_iff.2 (fun _ _ h => Option.some.inj h) e
    subst this
    rcases h with (h | ⟨_, h⟩ | ⟨_, _, h⟩) | ⟨_, _, h | h, _⟩ <;> exact hf (hr _ (by simp)) h

/-- Principal "p" has the role "r" in tenant "t" and namespace "n"; "q" is registered and has nothing. -/
def exTyped : List NCall :=
  exGroup ++ [.newTenant (str "t"), .addTenants [some 0], .addNamespaces [some (str "n", 0)], .addPrincipals [some (str "q", 1)],
    .addData (some { tenant := .str (str "t"), namespace_ := .str (str "n"), role := .str (str "r"), principal := .str (str "p") })]

/-- Who asks, with which options. -/
def exAsks (p : String) (opts : List Opt) : NCall := .authorize .fwd 9 [] (str p) (opts.map some)

/-- C118. A tenant that is no string; a namespace that is none, with an unregistered and with a registered tenant; a group that is none, with and without an
activity and where no role is consulted; a principal without rows; strings only. -/
theorem C118_when_authorize_cases :
    (panics {} (exTyped ++ [exAsks "p" [.tenant (.int 3)], exAsks "p" [.tenant (.str (str "u")), .namespace_ (.int 3)], exAsks "p" [.tenant (.str (str "t")), .namespace_ (.int 3)],
      exAsks "p" [.tenant (.str (str "t")), .namespace_ (.str (str "n")), .group (.int 1), .activity (.str (str "invoice GET"))],
      exAsks "p" [.tenant (.str (str "t")), .namespace_ (.str (str "n")), .group (.int 1)],
      exAsks "p" [.tenant (.str (str "t")), .group (.int 1), .activity (.str (str "invoice GET"))],
      exAsks "q" [.tenant (.int 3)], .authorize .fwd 9 [] (str "p") [none], .authorize .fwd 9 [] (str "u") [none],
      exAsks "p" [.tenant (.str (str "t")), .namespace_ (.str (str "n")), .group (.str (str "g")), .activity (.str (str "invoice GET"))]])).drop exTyped.length =
      [true, false, true, true, false, false, false, true, false, false] := by
  decide +kernel

end RP
end Verif
