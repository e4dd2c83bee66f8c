import Verif.Props.Grants
import Verif.Props.Keep
import Verif.Props.AuthDuring

/-!
# When a grant takes effect, by history (C32)
-/

namespace Verif
open Spec
namespace Spec

/-- In state `u` the call looks up the tenants of `p`. -/
def Asks (u : Mgr) (p : Str) : MOp → Prop
  | .authorize _ _ _ q _ => q = p ∧ ∃ x, (p, x) ∈ u.principals
  | .implicitTenants _ _ _ q => q = p
  | _ => False

/-- Along `ops` from `w0`, the first call that looks up the tenants of `p` is made in state `u`. -/
def FirstAsked (w0 : Mgr) (ops : List MOp) (p : Str) (u : Mgr) : Prop :=
  ∃ pre op post, ops = pre ++ op :: post ∧ MOp.run w0 pre = .ok u ∧ Asks u p op ∧
    ∀ pre' op' post' u', pre = pre' ++ op' :: post' → MOp.run w0 pre' = .ok u' → ¬ Asks u' p op'

end Spec

namespace GrantExact

variable {w w' : Mgr} {p : Str}

theorem not_asks {op : MOp} (inv : w.Inv) (hn : ¬ Asks w p op) (h : op.apply w = .ok w') : w'.pcache.get p = w.pcache.get p := by
  cases op with
  | authorize o fuel site q opts =>
    obtain ⟨⟨b, x⟩, h1, rfl⟩ := Out.map_eq_ok.1 h
    rcases Mgr.authorize_inv h1 with ⟨e, _⟩ | ⟨hq, I, hI⟩
    · simp only at e ⊢; rw [e]
    · refine (Mgr.implicitTenants_inv inv hI).2.2.2.1 p fun e => hn ⟨e.symm, ?_⟩
      subst e
      cases hg : w.principals.get p with
      | none => exact absurd hg hq
      | some x => exact ⟨x, GoMap.get_some_mem hg⟩
  | implicitTenants o fuel site q =>
    obtain ⟨⟨b, x⟩, h1, rfl⟩ := Out.map_eq_ok.1 h
    exact (Mgr.implicitTenants_inv inv h1).2.2.2.1 p fun e => hn e.symm
  | tenantChildren o fuel site id =>
    obtain ⟨⟨b, x⟩, h1, rfl⟩ := Out.map_eq_ok.1 h
    have := (Mgr.tenantChildren_spec inv h1).2.1
    rw [this]
  | _ => exact congrArg (fun m => GoMap.get m p) (AD.text_apply inv (by simp [AD.Many]) h).2

theorem asks {op : MOp} (inv : w.Inv) (ha : Asks w p op) (h : op.apply w = .ok w') :
    ∃ o fuel site I, w.implicitTenants o fuel site p = .ok (I, w') := by
  cases op with
  | authorize o fuel site q opts =>
    obtain ⟨rfl, x, hx⟩ := ha
    obtain ⟨⟨b, x⟩, h1, rfl⟩ := Out.map_eq_ok.1 h
    rcases Mgr.authorize_inv h1 with ⟨_, _, e⟩ | ⟨_, I, hI⟩
    · rw [(GoMap.mem_iff_get inv.regP).1 hx] at e; cases e
    · exact ⟨_, _, _, _, hI⟩
  | implicitTenants o fuel site q =>
    obtain ⟨⟨b, x⟩, h1, rfl⟩ := Out.map_eq_ok.1 h
    cases (show q = p from ha)
    exact ⟨_, _, _, _, h1⟩
  | _ => exact ha.elim

/-- A principal never looked up has nothing kept. -/
theorem kept_none {w0 : Mgr} {ops : List MOp} (inv : w0.Inv) (hn : w0.pcache.get p = none) (h : MOp.run w0 ops = .ok w)
    (hf : ∀ u, ¬ FirstAsked w0 ops p u) : w.pcache.get p = none := by
  induction ops generalizing w0 with
  | nil => cases h; exact hn
  | cons op ops ih =>
    obtain ⟨w1, h1, h2⟩ := Out.bind_eq_ok.1 h
    have ha : ¬ Asks w0 p op := fun ha =>
      hf w0 ⟨[], op, ops, rfl, rfl, ha, fun pre' op' post' u' e => by simp at e⟩
    refine ih (MOp.apply_inv inv h1) ((not_asks inv ha h1).trans hn) h2 ?_
    rintro u ⟨pre, op', post, e, r, a, f⟩
    refine hf u ⟨op :: pre, op', post, by rw [e]; rfl, Out.bind_eq_ok.2 ⟨w1, h1, r⟩, a, ?_⟩
    intro pre' op'' post' u' e' r'
    cases pre' with
    | nil => cases e'; cases r'; exact ha
    | cons y pre' =>
      cases e'
      obtain ⟨z1, r3, r4⟩ := Out.bind_eq_ok.1 r'
      rw [h1] at r3; cases r3
      exact f pre' op'' post' u' rfl r4

/-- The tenants kept for a principal are those of the first time they were looked up. -/
theorem kept_some {w0 u : Mgr} {ops : List MOp} (inv : w0.Inv) (hn : w0.pcache.get p = none) (h : MOp.run w0 ops = .ok w)
    (hf : FirstAsked w0 ops p u) : u.Inv ∧ u.pcache.get p = none ∧ ∃ o fuel site I v,
      u.implicitTenants o fuel site p = .ok (I, v) ∧ w.pcache.get p = some I := by
  induction ops generalizing w0 with
  | nil =>
    obtain ⟨pre, op, post, e, _⟩ := hf
    simp at e
  | cons op ops ih =>
    obtain ⟨w1, h1, h2⟩ := Out.bind_eq_ok.1 h
    have inv1 := MOp.apply_inv inv h1
    obtain ⟨pre, op', post, e, r, a, f⟩ := hf
    cases pre with
    | nil =>
      cases e; cases r
      obtain ⟨o, fuel, site, J, hJ⟩ := asks inv a h1
      exact ⟨inv, hn, o, fuel, site, J, w1, hJ, (Keeps.run inv1 h2).cache p J (Mgr.implicitTenants_inv inv hJ).2.2.1⟩
    | cons y pre =>
      obtain ⟨e3, e4⟩ := List.cons.inj e
      subst e3
      obtain ⟨z1, r3, r4⟩ := Out.bind_eq_ok.1 r
      rw [h1] at r3; cases r3
      refine ih inv1 ((not_asks inv (f [] op pre w0 rfl rfl) h1).trans hn) h2 ⟨pre, op', post, e4, r4, a, ?_⟩
      intro pre' op'' post' u' e' r'
      exact f (op :: pre') op'' post' u' (by rw [e']; rfl) (Out.bind_eq_ok.2 ⟨w1, h1, r'⟩)

end GrantExact

/-- C32. After any calls nothing is kept for `p` exactly if `p` was never looked up; otherwise what is kept
are the tenants of the moment of the first look-up, whatever was granted since. -/
theorem C32_kept {ops : List MOp} {w : Mgr} {p : Str} (h : MOp.run {} ops = .ok w) :
    (w.pcache.get p = none ↔ ∀ u, ¬ FirstAsked {} ops p u) ∧
    ∀ u, FirstAsked {} ops p u → ∃ I, w.pcache.get p = some I ∧
      (∀ x, Member u p x → x ∈ I) ∧ ∀ x ∈ I, Member u p x ∨ ∃ a, Manages u p a ∧ Under u a x := by
  refine ⟨⟨fun hn u hu => ?_, GrantExact.kept_none Mgr.Inv.empty rfl h⟩, fun u hu => ?_⟩
  · obtain ⟨_, _, _, _, _, I, _, _, hI⟩ := GrantExact.kept_some Mgr.Inv.empty rfl h hu
    rw [hn] at hI; cases hI
  · obtain ⟨inv, hn, _, _, _, I, _, hJ, hI⟩ := GrantExact.kept_some Mgr.Inv.empty rfl h hu
    exact ⟨I, hI, C24_implicit_sound inv hn hJ⟩

/-- C32. The tenant request right after a successful grant is authorized, whenever it returns, exactly if the
principal was not first looked up at a moment when it was in no tenant. -/
theorem C32_exact {ops : List MOp} {w w1 w2 : Mgr} {c : Nat} {t : TenantObj} {p r : Str} {m : Bool}
    {o : Ord} {fuel : Nat} {site : List Val} {b : Bool}
    (hrun : MOp.run {} ops = .ok w) (hc : w.tobjs[c]? = some t)
    (hg : w.tAddPrincipalWithRole c p r m = .ok (none, w1))
    (h : w1.authorize o fuel site p [.tenant (.str t.id)] = .ok (b, w2)) :
    b = true ↔ ∀ u, FirstAsked {} ops p u → ∃ x, Member u p x := by
  obtain ⟨_, kept⟩ := C32_kept (p := p) hrun
  constructor
  · rintro rfl u hu
    obtain ⟨I, hI, _, h2⟩ := kept u hu
    cases I with
    | nil =>
      have inv := MOp.reachable_inv hrun
      have inv1 := inv.tAddPrincipalWithRole hg
      obtain ⟨t', ht', hm, _⟩ := Mgr.withTenant_ok hg
      rw [hc] at ht'; cases ht'
      obtain ⟨e, w1', g1, _, _, _, _, g6⟩ := C35_addPrincipalWithRole inv hc hm p r m
      rw [hg] at g1; cases g1
      have epc : w1.pcache = w.pcache := by rw [g6 rfl]
      cases (C32_denied_for_ever inv1 (by rw [epc]; exact hI) h).1
    | cons x I =>
      rcases h2 x (by simp) with hm | ⟨a, ⟨row, h3, h4, h5, _⟩, _⟩
      · exact ⟨x, hm⟩
      · exact ⟨a, row, h3, h4, h5⟩
  · intro hu
    refine C32_grant_takes_effect_partial hrun hc (fun hI => ?_) hg h
    have : ∃ u, FirstAsked {} ops p u := by
      refine Classical.byContradiction fun hno => ?_
      rw [GrantExact.kept_none Mgr.Inv.empty rfl hrun fun u hu => hno ⟨u, hu⟩] at hI; cases hI
    obtain ⟨u, hf⟩ := this
    obtain ⟨x, hx⟩ := hu u hf
    obtain ⟨I, h1, h2, _⟩ := kept u hf
    rw [hI] at h1; cases h1
    cases h2 x hx

/-- In `exStale` the principal is first looked up by the last call, when it is in no tenant: after that call the
kept list is empty, though the grant that follows succeeds. Without that call nothing is kept. -/
example : ∃ w, MOp.run {} exStale = .ok w ∧ (w.pcache.get (str "p") = some [] ∧
    (w.tAddPrincipalWithRole 0 (str "p") (str "r") true).map (·.1) = .ok none) := Out.chk_ok (by decide +kernel)

example : ∃ u, FirstAsked {} exStale (str "p") u ∧ ∀ x, ¬ Member u (str "p") x := by
  obtain ⟨w, h, hp, _⟩ : ∃ w, MOp.run {} exStale = .ok w ∧ (w.pcache.get (str "p") = some [] ∧ True) :=
    Out.chk_ok (by decide +kernel)
  obtain ⟨k1, k2⟩ := C32_kept (p := str "p") h
  have : ∃ u, FirstAsked {} exStale (str "p") u := by
    refine Classical.byContradiction fun hno => ?_
    rw [k1.2 fun u hu => hno ⟨u, hu⟩] at hp; cases hp
  obtain ⟨u, hu⟩ := this
  obtain ⟨I, h1, h2, _⟩ := k2 u hu
  rw [hp] at h1; cases h1
  exact ⟨u, hu, fun x hx => by cases h2 x hx⟩

end Verif
