import Verif.Props.V1Getters
import Verif.Props.SearchOrder

/-! C68, the last part: exactly when `GetTenantsForPrincipal` (v1/role_manager.go:301-310) lists every tenant once. -/

namespace Verif
open Spec
namespace V1

variable {w : V1}

theorem slicesCompact_sublist : ∀ l : List Str, (slicesCompact l).Sublist l
  | [] => .slnil
  | [_] => .refl _
  | x :: y :: l => by
    rw [slicesCompact]
    have ih := slicesCompact_sublist (y :: l)
    split
    · exact .cons _ ih
    · exact .cons_cons _ ih

theorem mem_slicesCompact {a : Str} : ∀ {l : List Str}, a ∈ slicesCompact l ↔ a ∈ l
  | [] => .rfl
  | [_] => .rfl
  | x :: y :: l => by
    have ih := mem_slicesCompact (a := a) (l := y :: l)
    rw [slicesCompact]
    split
    · rename_i h
      rw [ih, List.mem_cons (a := a) (b := x)]
      exact ⟨.inr, fun h' => h'.elim (fun e => by rw [e, h]; simp) id⟩
    · rw [List.mem_cons, ih, List.mem_cons (a := a) (b := x)]

/-- A tenant that comes back after another one is listed twice. -/
theorem slicesCompact_twice {t u : Str} (hn : t ≠ u) (l : List Str) : ¬ (slicesCompact (t :: u :: t :: l)).Nodup := by
  rw [slicesCompact, if_neg hn, slicesCompact, if_neg (Ne.symm hn)]
  intro h
  refine (List.nodup_cons.1 h).1 (List.mem_cons_of_mem _ (mem_slicesCompact.2 ?_))
  simp

theorem fields_of_mem {hs : List Str} {l : List TP} (h : List.Forall₂ Fields hs l) {y : TP} (hy : y ∈ l) : ∃ j ∈ hs, Fields j y := by
  induction h with
  | nil => cases hy
  | @cons j z hs l hz _ ih =>
    rcases List.mem_cons.1 hy with rfl | hy
    · exact ⟨j, by simp, hz⟩
    · obtain ⟨i, hi, hf⟩ := ih hy
      exact ⟨i, by simp [hi], hf⟩

theorem tenants_nodup {p : Str} {hs : List Str} {l : List TP} (h : List.Forall₂ Fields hs l) (hd : hs.Nodup)
    (h1 : ∀ h k x y, h ∈ hs → k ∈ hs → Fields h x → Fields k y → x.principal = p → y.principal = p → x.tenant = y.tenant → h = k) :
    ((l.filter fun x => x.principal = p).map (·.tenant)).Nodup := by
  induction h with
  | nil => exact List.nodup_nil
  | @cons k x hs l hk hl ih =>
    have ih := ih (List.nodup_cons.1 hd).2 fun h k x y a b => h1 h k x y (.tail _ a) (.tail _ b)
    by_cases hp : x.principal = p
    · rw [List.filter_cons_of_pos (by simpa using hp), List.map_cons, List.nodup_cons]
      refine ⟨fun hm => ?_, ih⟩
      obtain ⟨y, hy, he⟩ := List.mem_map.1 hm
      obtain ⟨hy, hyp⟩ := List.mem_filter.1 hy
      obtain ⟨j, hj, hf⟩ := fields_of_mem hl hy
      have := h1 k j x y (by simp) (by simp [hj]) hk hf hp (by simpa using hyp) he.symm
      subst this
      exact (List.nodup_cons.1 hd).1 hj
    · rwa [List.filter_cons_of_neg (by simpa using hp)]

/-- C68. `GetTenantsForPrincipal` lists every tenant once, whatever the iteration order, exactly when the principal's
assignments are all in one tenant or no two of them are in the same tenant. Otherwise some order lists a tenant twice. -/
theorem C68_once (inv : Inv w) {p : Str} :
    (∀ (o : Ord) (site : List Val) (ts : List Str), w.tenantsForPrincipal o site p = .ok ts → ts.Nodup) ↔
    (∀ x y, Row w x → Row w y → x.principal = p → y.principal = p → x.tenant = y.tenant) ∨
    (∀ h k x y, h ∈ w.tps → k ∈ w.tps → Fields h x → Fields k y → x.principal = p → y.principal = p →
      x.tenant = y.tenant → h = k) := by
  constructor
  · intro hall
    refine Classical.or_iff_not_imp_left.2 fun hne h k x y hh hk fx fy px py ht => Classical.byContradiction fun hhk => hne ?_
    intro a b ra rb pa pb
    refine Classical.byContradiction fun hab => ?_
    obtain ⟨z, ⟨j, hj, fz⟩, pz, hz⟩ : ∃ z, Row w z ∧ z.principal = p ∧ x.tenant ≠ z.tenant := by
      by_cases e : x.tenant = a.tenant
      · exact ⟨b, rb, pb, fun e' => hab (e.symm.trans e')⟩
      · exact ⟨a, ra, pa, e⟩
    have hjh : j ≠ h := fun e => hz (by rw [fields_unique fz (e ▸ fx)])
    have hjk : j ≠ k := fun e => hz (by rw [fields_unique fz (e ▸ fy), ht])
    have hp : (h :: j :: k :: (((w.tps.erase h).erase j).erase k)).Perm w.tps := by
      have m1 : j ∈ w.tps.erase h := (List.mem_erase_of_ne hjh).2 hj
      have m2 : k ∈ (w.tps.erase h).erase j := (List.mem_erase_of_ne (Ne.symm hjk)).2 ((List.mem_erase_of_ne (Ne.symm hhk)).2 hk)
      exact (((List.perm_cons_erase m2).symm.cons j).trans (List.perm_cons_erase m1).symm).cons h |>.trans (List.perm_cons_erase hh).symm
    obtain ⟨σ, hσ⟩ := exists_indices hp
    obtain ⟨ts, hts⟩ := tenantsForPrincipal_total inv (.byIndex fun _ => σ) [] p
    have hnd := hall _ _ _ hts
    obtain ⟨l, hl, rfl⟩ := Out.map_eq_ok.1 hts
    have e : (Ord.byIndex fun _ => σ).ord [] Str w.tps = h :: j :: k :: (((w.tps.erase h).erase j).erase k) := by
      have := hσ (fun x : Str => x)
      simpa [Ord.byIndex] using this
    have h2 := rows_forall₂ (i := 0) hl
    rw [e] at h2
    match l, h2 with
    | x' :: z' :: y' :: l, .cons f1 (.cons f2 (.cons f3 _)) =>
      rw [fields_unique f1 fx, fields_unique f2 fz, fields_unique f3 fy] at hnd
      rw [List.filter_cons_of_pos (by simpa using px), List.filter_cons_of_pos (by simpa using pz),
        List.filter_cons_of_pos (by simpa using py), List.map_cons, List.map_cons, List.map_cons, ← ht] at hnd
      exact slicesCompact_twice hz _ hnd
  · rintro (h | h) o site ts hts
    · by_cases hx : ∃ x, Row w x ∧ x.principal = p
      · obtain ⟨x, hx, px⟩ := hx
        rcases C68_once_partial (t := x.tenant) (fun y hy py => h y x hy hx py px) hts with rfl | rfl <;> simp
      · rcases C68_once_partial (t := []) (fun y hy py => absurd ⟨y, hy, py⟩ hx) hts with rfl | rfl <;> simp
    · obtain ⟨l, hl, rfl⟩ := Out.map_eq_ok.1 hts
      refine (slicesCompact_sublist _).nodup (tenants_nodup (rows_forall₂ (i := 0) hl) ?_ ?_)
      · exact (o.perm _ _ _).nodup_iff.2 inv.tpsNodup
      · intro h' k' x y a b
        exact h h' k' x y (Ord.mem_ord.1 a) (Ord.mem_ord.1 b)

/-- Two tenants with one assignment each: the second condition holds and the first does not. -/
example : ∃ w, V1Op.run {} (twoTenants.take 7) = .ok w ∧
    (∀ h k x y, h ∈ w.tps → k ∈ w.tps → Fields h x → Fields k y → x.principal = str "p" → y.principal = str "p" →
      x.tenant = y.tenant → h = k) ∧
    w.tenantsForPrincipal .fwd [] (str "p") = .ok [str "t", str "u"] := by
  obtain ⟨w, h1, h2, h3⟩ : ∃ w, V1Op.run {} (twoTenants.take 7) = .ok w ∧
      (∀ h ∈ w.tps, ∀ k ∈ w.tps, (decode h).map (·.tenant) = (decode k).map (·.tenant) → h = k) ∧
      w.tenantsForPrincipal .fwd [] (str "p") = .ok [str "t", str "u"] := Out.chk_ok (by decide +kernel)
  refine ⟨w, h1, fun h k x y hh hk fx fy _ _ e => h2 h hh k hk ?_, h3⟩
  rw [decode_iff.2 fx, decode_iff.2 fy]
  simp [Out.map, e]

/-- With a second assignment in the first tenant, none of the conditions holds (`C68_counterexample`). -/
example : ∃ w, V1Op.run {} twoTenants = .ok w ∧
    ¬ ∀ (o : Ord) (site : List Val) (ts : List Str), w.tenantsForPrincipal o site (str "p") = .ok ts → ts.Nodup := by
  obtain ⟨w, hw, h⟩ := C68_counterexample
  exact ⟨w, hw, fun hf => absurd (hf _ _ _ h) (by decide)⟩

end V1
end Verif
