import Verif.Spec.Role
import Verif.Props.Match

namespace Verif
open Spec

namespace Out
variable {α β : Type}

theorem collectI_mono {f g : Nat → α → Out (List β)} {xs : List α} {i : Nat} {r : List β}
    (hfg : ∀ j, ∀ x ∈ xs, ∀ ys, f j x = ok ys → g j x = ok ys) (h : collectI f i xs = ok r) :
    collectI g i xs = ok r := by
  induction xs generalizing i r with
  | nil => exact h
  | cons x xs ih =>
    simp only [collectI, bind_eq_ok, ok.injEq] at h ⊢
    obtain ⟨ys, h1, zs, h2, rfl⟩ := h
    exact ⟨ys, hfg _ x (by simp) _ h1, zs, ih (fun j y hy => hfg j y (by simp [hy])) h2, rfl⟩

theorem collectI_all {f : Nat → α → Out (List β)} {xs : List α} {i : Nat} {r : List β}
    (h : collectI f i xs = ok r) : ∀ x ∈ xs, ∃ j ys, f j x = ok ys := by
  induction xs generalizing i r with
  | nil => simp
  | cons x xs ih =>
    simp only [collectI, bind_eq_ok, ok.injEq] at h
    obtain ⟨ys, h1, zs, h2, rfl⟩ := h
    intro y hy
    rcases List.mem_cons.1 hy with rfl | hy
    · exact ⟨_, _, h1⟩
    · exact ih h2 y hy

theorem anyI_mono {f g : Nat → α → Out Bool} {xs : List α} {i : Nat} {b : Bool}
    (hfg : ∀ j, ∀ x ∈ xs, ∀ c, f j x = ok c → g j x = ok c) (h : anyI f i xs = ok b) :
    anyI g i xs = ok b := by
  induction xs generalizing i with
  | nil => exact h
  | cons x xs ih =>
    have ih := fun i h => ih (i := i) (fun j y hy => hfg j y (by simp [hy])) h
    unfold anyI at h ⊢
    split at h
    · rename_i he; rw [hfg _ x (by simp) _ he]; exact h
    · rename_i he; rw [hfg _ x (by simp) _ he]; exact ih _ h
    · cases h
    · cases h

end Out

namespace RHeap
variable {h : RHeap} {o : Ord}

theorem descRoles_succ (n : Nat) (site : List Val) (r : Nat) : descRoles h o (n + 1) site r =
    match h.roles[r]? with
    | none => .panic
    | some ro =>
      Out.collectI (fun i (e : Str × Nat) =>
        (descRoles h o n (site ++ [.int i]) e.2).map (fun ds => e.2 :: ds)) 0 (o.ord site _ ro.desc) := rfl

theorem descRoles_mem {n : Nat} {site : List Val} {r : Nat} {ds : List Nat}
    (hd : descRoles h o n site r = .ok ds) (d : Nat) : d ∈ ds ↔ Desc h r d := by
  induction n generalizing site r ds d with
  | zero => cases hd
  | succ n ih =>
    rw [descRoles_succ] at hd
    cases hr : h.roles[r]? with
    | none => rw [hr] at hd; cases hd
    | some ro =>
      rw [hr] at hd
      simp only at hd
      have := Out.collectI_mem (P := fun (e : Str × Nat) y => y = e.2 ∨ Desc h e.2 y) (by
        intro j e _ ys hy y
        rw [Out.map_eq_ok] at hy
        obtain ⟨ds', h1, rfl⟩ := hy
        simp [ih h1 y]) hd d
      rw [this]
      constructor
      · rintro ⟨⟨k, c⟩, he, rfl | hd'⟩
        · exact .child ⟨ro, k, hr, Ord.mem_ord.1 he⟩
        · exact .step ⟨ro, k, hr, Ord.mem_ord.1 he⟩ hd'
      · intro hdd
        cases hdd with
        | child hc =>
          obtain ⟨ro', k, hr', hm⟩ := hc
          rw [hr] at hr'; cases hr'
          exact ⟨(k, d), Ord.mem_ord.2 hm, .inl rfl⟩
        | step hc hd' =>
          obtain ⟨ro', k, hr', hm⟩ := hc
          rw [hr] at hr'; cases hr'
          exact ⟨(k, _), Ord.mem_ord.2 hm, .inr hd'⟩

theorem descRoles_mono {n m : Nat} {site : List Val} {r : Nat} {ds : List Nat}
    (hd : descRoles h o n site r = .ok ds) (hm : n ≤ m) : descRoles h o m site r = .ok ds := by
  induction n generalizing site r ds m with
  | zero => cases hd
  | succ n ih =>
    obtain ⟨m, rfl⟩ : ∃ m', m = m' + 1 := ⟨m - 1, by omega⟩
    rw [descRoles_succ] at hd ⊢
    cases hr : h.roles[r]? with
    | none => rw [hr] at hd; cases hd
    | some ro =>
      rw [hr] at hd
      simp only at hd ⊢
      refine Out.collectI_mono ?_ hd
      intro j e _ ys hy
      rw [Out.map_eq_ok] at hy ⊢
      obtain ⟨ds', h1, rfl⟩ := hy
      exact ⟨ds', ih h1 (by omega), rfl⟩

/-- "One link down" as a relation to recurse on. -/
def Below (h : RHeap) (d r : Nat) : Prop := Child h r d

theorem descRoles_acc {n : Nat} {site : List Val} {r : Nat} {ds : List Nat}
    (hd : descRoles h o n site r = .ok ds) : Acc (Below h) r := by
  induction n generalizing site r ds with
  | zero => cases hd
  | succ n ih =>
    rw [descRoles_succ] at hd
    cases hr : h.roles[r]? with
    | none => rw [hr] at hd; cases hd
    | some ro =>
      rw [hr] at hd
      simp only at hd
      refine ⟨_, fun d hb => ?_⟩
      obtain ⟨ro', k, hr', hm⟩ := hb
      rw [hr] at hr'; cases hr'
      obtain ⟨j, ys, hy⟩ := Out.collectI_all hd (k, d) (Ord.mem_ord.2 hm)
      rw [Out.map_eq_ok] at hy
      obtain ⟨ds', h1, _⟩ := hy
      exact ih h1

theorem lt_of_get {α : Type} {l : List α} {i : Nat} {x : α} (h : l[i]? = some x) : i < l.length :=
  (List.getElem?_eq_some_iff.1 h).1

theorem bound_exists {α : Type} {P : α → Nat → Prop} (hmono : ∀ x n m, P x n → n ≤ m → P x m)
    (l : List α) (hl : ∀ x ∈ l, ∃ n, P x n) : ∃ n, ∀ x ∈ l, P x n := by
  induction l with
  | nil => exact ⟨0, by simp⟩
  | cons a l ih =>
    obtain ⟨n, hn⟩ := hl a (by simp)
    obtain ⟨m, hm⟩ := ih (fun x hx => hl x (by simp [hx]))
    refine ⟨max n m, fun x hx => ?_⟩
    rcases List.mem_cons.1 hx with rfl | hx
    · exact hmono _ _ _ hn (by omega)
    · exact hmono _ _ _ (hm x hx) (by omega)

theorem descRoles_total (ok : Spec.RHeap.OK h) {r : Nat} (hacc : Acc (Below h) r)
    (hlt : r < h.roles.length) : ∃ n, ∀ o site, ∃ ds, descRoles h o n site r = .ok ds := by
  induction hacc with
  | intro r _ ih =>
    obtain ⟨ro, hr⟩ : ∃ ro, h.roles[r]? = some ro := ⟨_, List.getElem?_eq_getElem hlt⟩
    obtain ⟨n, hn⟩ := bound_exists (P := fun (e : Str × Nat) n => ∀ o site, ∃ ds, descRoles h o n site e.2 = .ok ds)
      (fun e n m hp hnm o site => by
        obtain ⟨ds, hds⟩ := hp o site; exact ⟨ds, descRoles_mono hds hnm⟩) ro.desc
      (fun e he => ih e.2 ⟨ro, e.1, hr, he⟩ (ok.desc ro (List.mem_of_getElem? hr) e he))
    refine ⟨n + 1, fun o site => ?_⟩
    rw [descRoles_succ, hr]
    simp only
    apply Out.collectI_total
    intro j e he
    obtain ⟨ds, hds⟩ := hn e (Ord.mem_ord.1 he) o (site ++ [.int j])
    exact ⟨e.2 :: ds, by rw [hds]; rfl⟩

theorem desc_trans {a b c : Nat} (h1 : Desc h a b) (h2 : Desc h b c) : Desc h a c := by
  induction h1 with
  | child hc => exact .step hc h2
  | step hc _ ih => exact .step hc (ih h2)

theorem matchResource_spec {v p : Str} {b : Bool} (hm : matchResource v p = .ok b) :
    b = true ↔ Matches p v := by
  rw [← matchResource_true_iff, hm]; simp

theorem groupOf_get (ok : Spec.RHeap.OK h) {r : Nat} {ro : RoleObj} (hr : h.roles[r]? = some ro)
    {group : Str} {g : GroupObj} : GroupOf h r group g ↔ ∃ ga, ro.perms.get group = some ga ∧ h.groups[ga]? = some g := by
  have wf := ok.permsWF ro (List.mem_of_getElem? hr)
  constructor
  · rintro ⟨ro', ga, hr', hm, hg⟩
    rw [hr] at hr'; cases hr'
    exact ⟨ga, (GoMap.mem_iff_get wf).1 hm, hg⟩
  · rintro ⟨ga, hm, hg⟩
    exact ⟨ro, ga, hr, (GoMap.mem_iff_get wf).2 hm, hg⟩

/-- Exactness of `has`. -/
theorem has_spec (ok : Spec.RHeap.OK h) {group name : Str} {allowed : List Str} {n : Nat}
    {site : List Val} {r : Nat} {b : Bool} (hh : has h o group name allowed n site r = .ok b) :
    b = true ↔ Granted h allowed group name r := by
  induction n generalizing site r b with
  | zero => cases hh
  | succ n ih =>
    rw [has] at hh
    cases hr : h.roles[r]? with
    | none => rw [hr] at hh; cases hh
    | some ro =>
      rw [hr] at hh
      simp only at hh
      cases hg : ro.perms.get group with
      | none =>
        rw [hg] at hh
        simp only [Out.ok.injEq] at hh
        subst hh
        simp only [Bool.false_eq_true, false_iff]
        rintro ⟨⟨g, hgo⟩, _⟩
        obtain ⟨ga, h1, _⟩ := (groupOf_get ok hr).1 hgo
        rw [hg] at h1; cases h1
      | some ga =>
        rw [hg] at hh
        simp only at hh
        cases hgr : h.groups[ga]? with
        | none => rw [hgr] at hh; cases hh
        | some g =>
          rw [hgr] at hh
          simp only at hh
          have hgo : GroupOf h r group g := (groupOf_get ok hr).2 ⟨ga, hg, hgr⟩
          have huniq : ∀ g', GroupOf h r group g' → g' = g := by
            intro g' hg'
            obtain ⟨ga', h1, h2⟩ := (groupOf_get ok hr).1 hg'
            rw [hg] at h1; cases h1; rw [hgr] at h2; cases h2; rfl
          by_cases hl : (g.perms.get name).isSome
          · rw [if_pos hl] at hh
            simp only [Out.ok.injEq] at hh; subst hh
            simp only [true_iff]
            obtain ⟨a, ha⟩ := Option.isSome_iff_exists.1 hl
            exact ⟨⟨g, hgo⟩, .inl ⟨g, hgo, name, a, GoMap.get_some_mem ha, .inl rfl⟩⟩
          · rw [if_neg hl, Out.bind_eq_ok] at hh
            obtain ⟨matched, h1, h2⟩ := hh
            have hm := Out.anyI_spec (P := fun (e : Str × Attr) => Matches e.1 name)
              (fun j e _ c hc => matchResource_spec hc) h1
            have hown : OwnGrant h r group name ↔ matched = true := by
              rw [hm]
              constructor
              · rintro ⟨g', hg', k, a, hka, hk⟩
                rw [huniq g' hg'] at hka
                rcases hk with rfl | hk
                · exfalso; apply hl
                  rw [GoMap.get_isSome_iff]; exact List.mem_map.2 ⟨_, hka, rfl⟩
                · exact ⟨(k, a), Ord.mem_ord.2 hka, hk⟩
              · rintro ⟨⟨k, a⟩, he, hk⟩
                exact ⟨g, hgo, k, a, Ord.mem_ord.1 he, .inr hk⟩
            cases matched with
            | true =>
              simp only [if_true, Out.ok.injEq] at h2; subst h2
              simp only [true_iff]
              exact ⟨⟨g, hgo⟩, .inl (hown.2 rfl)⟩
            | false =>
              simp only [Bool.false_eq_true, if_false, Out.bind_eq_ok] at h2
              obtain ⟨ds, h3, h4⟩ := h2
              have hds := descRoles_mem h3
              have := Out.anyI_spec (P := fun d => ∃ dr, h.roles[d]? = some dr ∧
                  (allowed = [] ∨ dr.id ∈ allowed) ∧ Granted h allowed group name d) (by
                intro j d _ c hc
                cases hdr : h.roles[d]? with
                | none => rw [hdr] at hc; cases hc
                | some dr =>
                  rw [hdr] at hc
                  simp only at hc
                  by_cases ha : 0 < allowed.length
                  · have ha' : allowed ≠ [] := by intro e; rw [e] at ha; simp at ha
                    rw [if_pos ha] at hc
                    by_cases hin : dr.id ∈ allowed
                    · rw [if_pos hin] at hc
                      rw [ih hc]
                      simp [ha', hin]
                    · rw [if_neg hin] at hc
                      simp only [Out.ok.injEq] at hc; subst hc
                      simp [ha', hin]
                  · have ha' : allowed = [] := by
                      cases allowed with
                      | nil => rfl
                      | cons => simp at ha
                    rw [if_neg ha] at hc
                    rw [ih hc]
                    simp [ha']) h4
              rw [this]
              constructor
              · rintro ⟨d, hd, dr, hdr, hal, hgr'⟩
                refine ⟨⟨g, hgo⟩, .inr ?_⟩
                rcases hgr'.2 with hown' | ⟨d', dr', hdd, hdr', hal', hown'⟩
                · exact ⟨d, dr, (hds d).1 hd, hdr, hal, hown'⟩
                · exact ⟨d', dr', desc_trans ((hds d).1 hd) hdd, hdr', hal', hown'⟩
              · rintro ⟨_, ho | ⟨d, dr, hdd, hdr, hal, hown'⟩⟩
                · exact absurd (hown.1 ho) (by simp)
                · refine ⟨d, (hds d).2 hdd, dr, hdr, hal, ?_, .inl hown'⟩
                  obtain ⟨g', hg', _⟩ := hown'
                  exact ⟨g', hg'⟩

theorem has_mono {group name : Str} {allowed : List Str} {n m : Nat}
    {site : List Val} {r : Nat} {b : Bool} (hh : has h o group name allowed n site r = .ok b)
    (hm : n ≤ m) : has h o group name allowed m site r = .ok b := by
  induction n generalizing site r b m with
  | zero => cases hh
  | succ n ih =>
    obtain ⟨m, rfl⟩ : ∃ m', m = m' + 1 := ⟨m - 1, by omega⟩
    rw [has] at hh ⊢
    cases hr : h.roles[r]? with
    | none => rw [hr] at hh; cases hh
    | some ro =>
      rw [hr] at hh
      simp only at hh ⊢
      cases hg : ro.perms.get group with
      | none => rw [hg] at hh; exact hh
      | some ga =>
        rw [hg] at hh
        simp only at hh ⊢
        cases hgr : h.groups[ga]? with
        | none => rw [hgr] at hh; cases hh
        | some g =>
          rw [hgr] at hh
          simp only at hh ⊢
          split at hh
          · rename_i hl; rw [if_pos hl]; exact hh
          · rename_i hl; rw [if_neg hl]
            rw [Out.bind_eq_ok] at hh ⊢
            obtain ⟨matched, h1, h2⟩ := hh
            refine ⟨matched, h1, ?_⟩
            cases matched with
            | true => exact h2
            | false =>
              simp only [Bool.false_eq_true, if_false, Out.bind_eq_ok] at h2 ⊢
              obtain ⟨ds, h3, h4⟩ := h2
              refine ⟨ds, descRoles_mono h3 (by omega), Out.anyI_mono ?_ h4⟩
              intro j d _ c hc
              cases hdr : h.roles[d]? with
              | none => rw [hdr] at hc; cases hc
              | some dr =>
                rw [hdr] at hc
                simp only at hc ⊢
                split at hc
                · rename_i ha; rw [if_pos ha]
                  split at hc
                  · rename_i hin; rw [if_pos hin]; exact ih hc (by omega)
                  · rename_i hin; rw [if_neg hin]; exact hc
                · rename_i ha; rw [if_neg ha]; exact ih hc (by omega)

theorem desc_lt (ok : Spec.RHeap.OK h) {r d : Nat} (hd : Desc h r d) : d < h.roles.length := by
  induction hd with
  | child hc => obtain ⟨ro, k, hr, hm⟩ := hc; exact ok.desc ro (List.mem_of_getElem? hr) _ hm
  | step _ _ ih => exact ih

/-- `has` returns when the hierarchy below has no infinite chain and no pattern met there hangs. -/
theorem has_total (ok : Spec.RHeap.OK h) {group name : Str} {r : Nat}
    (hacc : Acc (Below h) r) (hlt : r < h.roles.length)
    (hpat : ∀ d, (d = r ∨ Desc h r d) → ∀ g, GroupOf h d group g → ∀ e ∈ g.perms, ¬ Hangs e.1 name) :
    ∃ n, ∀ allowed o site, ∃ b, has h o group name allowed n site r = .ok b := by
  -- induction over "proper transitive descendant"
  have hacc' : Acc (fun d r => Desc h r d) r := by
    have : ∀ r, Acc (Below h) r → Acc (fun d r => Desc h r d) r := by
      intro r hacc
      induction hacc with
      | intro r _ ih =>
        refine ⟨_, fun d hd => ?_⟩
        cases hd with
        | child hc => exact ih d hc
        | step hc hd => exact (ih _ hc).inv hd
    exact this r hacc
  have hacc0 := hacc
  induction hacc' with
  | intro r _ ih =>
    obtain ⟨ro, hr⟩ : ∃ ro, h.roles[r]? = some ro := ⟨_, List.getElem?_eq_getElem hlt⟩
    obtain ⟨n1, hn1⟩ := descRoles_total ok hacc0 hlt
    -- bound for all descendants
    obtain ⟨ds0, hds0⟩ := hn1 .fwd []
    obtain ⟨n2, hn2⟩ := bound_exists
      (P := fun (d : Nat) n => ∀ allowed o site, ∃ b, has h o group name allowed n site d = .ok b)
      (fun e n m hp hnm allowed o site => by
        obtain ⟨b, hb⟩ := hp allowed o site; exact ⟨b, has_mono hb hnm⟩) ds0
      (fun d hd => by
        have hdd := (descRoles_mem hds0 d).1 hd
        have haccd : Acc (Below h) d := by
          have : ∀ r d, Desc h r d → Acc (Below h) r → Acc (Below h) d := by
            intro r d hrd
            induction hrd with
            | child hc => intro ha; exact ha.inv hc
            | step hc _ ih => intro ha; exact ih (ha.inv hc)
          exact this r d hdd hacc0
        exact ih d hdd haccd (desc_lt ok hdd) (fun d' hd' => hpat d' (.inr (by
          rcases hd' with rfl | hd'
          · exact hdd
          · exact desc_trans hdd hd'))) haccd)
    refine ⟨max n1 n2 + 1, fun allowed o site => ?_⟩
    rw [has, hr]
    simp only
    cases hg : ro.perms.get group with
    | none => exact ⟨false, rfl⟩
    | some ga =>
      simp only
      have hgl := ok.perms ro (List.mem_of_getElem? hr) _ (GoMap.get_some_mem hg)
      have hgr : h.groups[ga]? = some h.groups[ga] := List.getElem?_eq_getElem hgl
      rw [hgr]
      simp only
      split
      · exact ⟨true, rfl⟩
      · obtain ⟨matched, hmt⟩ := Out.anyI_total (i := 0)
          (f := fun _ (e : Str × Attr) => matchResource name e.1)
          (xs := o.ord (site ++ [.int 0]) _ h.groups[ga].perms) (by
            intro j e he
            cases hm : matchResource name e.1 with
            | ok b => exact ⟨b, rfl⟩
            | panic => exact absurd hm (matchResource_no_panic _ _)
            | diverge =>
              exfalso
              exact hpat r (.inl rfl) _ ((groupOf_get ok hr).2 ⟨ga, hg, hgr⟩) e (Ord.mem_ord.1 he)
                ((C03_diverges_iff_partial _ _).1 hm))
        rw [hmt]
        cases matched with
        | true => exact ⟨true, rfl⟩
        | false =>
          simp only [Out.bind_ok, Bool.false_eq_true, if_false]
          obtain ⟨ds, hds⟩ := hn1 o (site ++ [.int 1])
          rw [descRoles_mono hds (by omega), Out.bind_ok]
          apply Out.anyI_total
          intro j d hd
          have hdd := (descRoles_mem hds d).1 hd
          have hdl := desc_lt ok hdd
          have hdr : h.roles[d]? = some h.roles[d] := List.getElem?_eq_getElem hdl
          rw [hdr]
          simp only
          obtain ⟨b, hb⟩ := hn2 d ((descRoles_mem hds0 d).2 hdd) allowed o (site ++ [.int 2, .int j])
          have hb := has_mono hb (show n2 ≤ max n1 n2 by omega)
          split
          · split
            · exact ⟨b, hb⟩
            · exact ⟨false, rfl⟩
          · exact ⟨b, hb⟩

end RHeap
end Verif
