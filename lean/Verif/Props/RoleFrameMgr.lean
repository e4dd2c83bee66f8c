import Verif.Props.RoleFrame
import Verif.Props.V1Managers

/-!
# Decisions and calls on roles that are not registered (C131)

A call on a role or group that concerns no registered role changes no decision of the manager, of the root package or of v1.
-/

namespace Verif
open Spec

namespace Mgr
variable {w : Mgr} {h : RHeap} {o : Ord} {fuel : Nat}

theorem heap_descendants {n : Nat} {site : List Val} {c : Nat} : ({ w with heap := h } : Mgr).descendants o n site c = w.descendants o n site c := by
  induction n generalizing site c with
  | zero => rfl
  | succ n ih =>
    rw [descendants, descendants]
    cases w.tobjs[c]? with
    | none => rfl
    | some t => simp only [ih]

theorem heap_tenantChildren {site : List Val} {id : Str} : ({ w with heap := h } : Mgr).tenantChildren o fuel site id =
    (w.tenantChildren o fuel site id).map fun x => (x.1, { x.2 with heap := h }) := by
  unfold tenantChildren
  simp only [heap_descendants]
  cases w.hierarchy.get id with
  | some l => rfl
  | none =>
    cases w.tenants.get id with
    | none => rfl
    | some c => dsimp only; cases w.descendants o fuel site c <;> rfl

theorem heap_implicitLoop {site : List Val} (l : List Data) (i : Nat) (E : List Str) (w : Mgr) :
    implicitLoop o fuel site i l E { w with heap := h } =
    (implicitLoop o fuel site i l E w).map fun x => (x.1, { x.2 with heap := h }) := by
  induction l generalizing i E w with
  | nil => rfl
  | cons d l ih =>
    rw [implicitLoop, implicitLoop]
    cases d.tenant with
    | str t =>
      dsimp only
      split
      · exact ih ..
      · split
        · rw [heap_tenantChildren]
          cases w.tenantChildren o fuel (site ++ [.int i]) t with
          | ok x =>
            simp only [Out.map_ok, Out.bind_ok]
            cases addDescs (E ++ [t]) x.1 with
            | ok E' => exact ih ..
            | panic => rfl
            | diverge => rfl
          | panic => rfl
          | diverge => rfl
        · exact ih ..
    | nil => rfl
    | bool => rfl
    | int => rfl

theorem heap_implicit {site : List Val} {p : Str} : ({ w with heap := h } : Mgr).implicitTenants o fuel site p =
    (w.implicitTenants o fuel site p).map fun x => (x.1, { x.2 with heap := h }) := by
  unfold implicitTenants
  dsimp only
  cases w.pcache.get p with
  | some I => rfl
  | none =>
    dsimp only
    have e : ({ w with heap := h } : Mgr).search o (site ++ [.int 0]) { principal := .str p } filterTenantsByPrincipal =
      w.search o (site ++ [.int 0]) { principal := .str p } filterTenantsByPrincipal := rfl
    rw [e, heap_implicitLoop]
    cases implicitLoop o fuel (site ++ [.int 1]) 0 (w.search o (site ++ [.int 0]) { principal := .str p } filterTenantsByPrincipal) [] w <;> rfl

variable (hh : ∀ id a, w.roles.get id = some a → ∀ o group name allowed n site,
  h.has o group name allowed n site a = w.heap.has o group name allowed n site a)
include hh

theorem heap_roleLoop {site : List Val} {r : Request} (l : List Str) (i : Nat) (allowed : List Str) :
    ({ w with heap := h } : Mgr).roleLoop o fuel site r i allowed l = w.roleLoop o fuel site r i allowed l := by
  induction l generalizing i allowed with
  | nil => rfl
  | cons role l ih =>
    rw [roleLoop, roleLoop]
    dsimp only
    cases hr : w.roles.get role with
    | none => exact ih ..
    | some a =>
      dsimp only
      split
      · rw [hh role a hr]
        simp only [ih]
      · rfl

omit hh in
theorem heap_collectNS {site : List Val} {p : Str} {n s : Val} (l : List Data) (i : Nat) :
    ({ w with heap := h } : Mgr).collectRolesNSLoop o site p n s i l = w.collectRolesNSLoop o site p n s i l := by
  induction l generalizing i with
  | nil => rfl
  | cons d l ih => rw [collectRolesNSLoop, collectRolesNSLoop, ih]; rfl

theorem heap_check {site : List Val} {p : Str} {r : Request} {f : Flags} :
    ({ w with heap := h } : Mgr).check o fuel site p r f = w.check o fuel site p r f := by
  unfold check checkActivity
  simp only [heap_roleLoop hh]
  have e : ({ w with heap := h } : Mgr).collectRolesNS o (site ++ [.int 3]) p r.namespace_ r.scope = w.collectRolesNS o (site ++ [.int 3]) p r.namespace_ r.scope :=
    heap_collectNS ..
  rw [e]
  rfl

theorem heap_fallback {site : List Val} {p : Str} {f : Flags} (l : List Str) (i : Nat) (r : Request) :
    ({ w with heap := h } : Mgr).fallback o fuel site p f i r l = w.fallback o fuel site p f i r l := by
  induction l generalizing i r with
  | nil => rfl
  | cons t l ih => rw [fallback, fallback]; simp only [heap_check hh, ih]

theorem heap_authorize (inv : w.Inv) {site : List Val} {p : Str} {opts : List Opt} :
    ({ w with heap := h } : Mgr).authorize o fuel site p opts = (w.authorize o fuel site p opts).map fun x => (x.1, { x.2 with heap := h }) := by
  unfold authorize
  simp only [heap_implicit]
  by_cases hp : (w.principals.get p).isNone = true
  · rw [if_pos hp, if_pos hp]; rfl
  · rw [if_neg hp, if_neg hp]
    cases hi : w.implicitTenants o fuel (site ++ [.int 0]) p with
    | panic => rfl
    | diverge => rfl
    | ok x =>
      obtain ⟨I, v⟩ := x
      have sb := (implicitTenants_inv inv hi).2.1
      have hv : ∀ id a, v.roles.get id = some a → ∀ o group name allowed n site,
          h.has o group name allowed n site a = v.heap.has o group name allowed n site a := by
        rw [sb]; exact hh
      simp only [Out.map_ok, Out.bind_ok, heap_check hv, heap_fallback hv]
      by_cases hI : I.length = 0
      · rw [if_pos hI, if_pos hI]; rfl
      · rw [if_neg hI, if_neg hI]
        have e : ({ v with heap := h } : Mgr).validateResources (opts.foldl Opt.apply {}) = v.validateResources (opts.foldl Opt.apply {}) := rfl
        rw [e]
        cases v.validateResources (opts.foldl Opt.apply {}) with
        | panic => rfl
        | diverge => rfl
        | ok b =>
          simp only [Out.bind_ok]
          cases b with
          | false => rfl
          | true =>
            cases v.check o fuel (site ++ [.int 1]) p (opts.foldl Opt.apply {}) (flagsOf (opts.foldl Opt.apply {})) with
            | panic => rfl
            | diverge => rfl
            | ok b =>
              cases b with
              | true => rfl
              | false =>
                simp only [Out.bind_ok]
                cases v.fallback o fuel (site ++ [.int 2]) p (flagsOf (opts.foldl Opt.apply {})) 0 (opts.foldl Opt.apply {})
                  (o.ord (site ++ [.int 3]) _ I) <;> rfl

end Mgr

/-- C131 for the decisions of the root package: a call on a role or group that concerns no registered role changes the answer to no
request, and what an answered request leaves in the caches. -/
theorem C131_root {ops : List MOp} {w w' : Mgr} (h : MOp.run {} ops = .ok w) {op : RoleOp} (ha : (MOp.role op).apply w = .ok w')
    (hc : ∀ id a, w.roles.get id = some a → ¬ op.Concerns w.heap a) (o : Ord) (fuel : Nat) (site : List Val) (p : Str) (opts : List Opt) :
    w'.authorize o fuel site p opts = (w.authorize o fuel site p opts).map fun x => (x.1, { x.2 with heap := w'.heap }) := by
  have inv := MOp.run_inv Mgr.Inv.empty h
  obtain ⟨h1, h2, rfl⟩ := Out.map_eq_ok.1 ha
  refine Mgr.heap_authorize (fun id a hr o group name allowed n site => ?_) inv
  obtain ⟨ro, hro, _⟩ := inv.roles id a hr
  have hlt := RHeap.lt_of_get hro
  exact Alike.has (closed_reach inv.heap hlt) (alike_step inv.heap hlt (hc id a hr) h2) (.inl rfl)

/-- C131 for the decisions of v1, with any number of managers. -/
theorem C131_v1 {cs : List VMM.Call} {W W' : VMM.World} (h : VMM.World.run {} cs = .ok W) {i j : Nat} {op : RoleOp} (ha : W.call i (.role op) = .ok W')
    (hc : ∀ id a, (W.view (some j)).roles.get id = some a → ¬ op.Concerns W.heap a) (o : Ord) (fuel : Nat) (site : List Val) (p : Str) (opts : List Opt) :
    W'.authorize j o fuel site p opts = W.authorize j o fuel site p opts := by
  refine (VMM.C126_partial h).1 i (.role op) W' ha (by simp [VMM.World.reached, VMM.receiver, VMM.ofManager]) ?_
  rintro (⟨rop, id, a, h1, h2, h3⟩ | ⟨r, g, as, b, id, a, h1, _⟩ | ⟨id, c, _, hh⟩)
  · cases h1; exact hc id a h2 h3
  · cases h1
  · simp [VMM.HitsT, VMM.HitsN] at hh

/-- The hypotheses of `C131_root`: role `r` is registered, role `x` is not and gets a permission. -/
example : ∃ w, MOp.run {} [.role (.newRole (str "r")), .role (.newRole (str "x")), .role (.addPerm 0 (str "g") [⟨str "/a", str "GET"⟩]), .addRole 0] = .ok w ∧
    (∃ w', (MOp.role (.addPerm 1 (str "g") [⟨str "/b", str "GET"⟩])).apply w = .ok w') ∧
    (∃ id a, w.roles.get id = some a) ∧
    ∀ id a, w.roles.get id = some a → ¬ (RoleOp.addPerm 1 (str "g") [⟨str "/b", str "GET"⟩]).Concerns w.heap a := by
  refine ⟨_, rfl, ⟨_, rfl⟩, ⟨str "r", 0, by decide⟩, fun id a hr => ?_⟩
  have ha : a = 0 := by
    have hr : GoMap.get [(str "r", 0)] id = some a := hr
    rw [GoMap.get] at hr
    split at hr
    · exact (Option.some.inj hr).symm
    · cases hr
  subst ha
  have none : ∀ {h : RHeap} {ro : RoleObj} {d : Nat}, h.roles[0]? = some ro → ro.desc = [] → ¬ Desc h 0 d := by
    intro h ro d h1 h2 h3
    cases h3 with
    | child h4 => obtain ⟨_, _, h5, h6⟩ := h4; rw [h1] at h5; cases h5; rw [h2] at h6; cases h6
    | step h4 _ => obtain ⟨_, _, h5, h6⟩ := h4; rw [h1] at h5; cases h5; rw [h2] at h6; cases h6
  rintro ⟨_, (h | h) | ⟨qo, ga, h1, h2, _⟩⟩
  · cases h
  · exact none rfl rfl h
  · cases h1; cases h2

end Verif
