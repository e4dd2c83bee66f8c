import Verif.Props.Authorize

/-!
# C140: how much memory decisions keep

`Authorize` fills two caches and never empties them.  Calls of `Authorize`, however many and whatever they ask, can
only add entries for registered principals and registered tenants, each of bounded size.
-/

namespace Verif
open Spec

/-! ## Sizes (specification) -/

/-- The cells of a cache: one for each key and one for each element of its list. -/
def Spec.cells {α : Type} (m : GoMap Str (List α)) : Nat := (m.map fun e => 1 + e.2.length).sum

/-- Every operation is a call of `Authorize`. -/
def Spec.OnlyAuthorize (ops : List MOp) : Prop := ∀ op ∈ ops, ∃ o fuel site p opts, op = .authorize o fuel site p opts

/-- `names` contains the tenant of every stored row and the id of every tenant object. -/
structure Spec.TenantNames (w : Mgr) (names : List Str) : Prop where
  rows : ∀ row, Stored w row → ∀ t, row.tenant = .str t → t ∈ names
  objs : ∀ t ∈ w.tobjs, t.id ∈ names

namespace Mgr
namespace Mem
variable {α : Type} {names : List Str} {w w' : Mgr} {o : Ord}

/-! ## The size of a cache and the room left -/

theorem cells_set {m : GoMap Str (List α)} {k : Str} {l : List α} (h : m.get k = none) :
    cells (m.set k l) = cells m + (1 + l.length) := by
  induction m with
  | nil => simp [GoMap.set, cells]
  | cons e m ih =>
    obtain ⟨a, x⟩ := e
    rw [GoMap.get] at h
    split at h
    · cases h
    · rename_i hne
      have := ih h
      rw [GoMap.set, if_neg hne]
      simp only [cells, List.map_cons, List.sum_cons] at this ⊢
      omega

/-- Registered keys without an entry. -/
def missing (keys : List Str) (m : GoMap Str (List α)) : List Str := keys.filter fun k => (m.get k).isNone

/-- The size of a cache plus the most that entries for the missing keys can add to it. -/
def room (keys : List Str) (B : Nat) (m : GoMap Str (List α)) : Nat := cells m + (missing keys m).length * (1 + B)

theorem missing_set {keys : List Str} {m : GoMap Str (List α)} {k : Str} {l : List α} (hk : k ∈ keys) (h : m.get k = none) :
    (missing keys (m.set k l)).length + 1 ≤ (missing keys m).length := by
  have e : missing keys (m.set k l) = (missing keys m).filter (fun x => decide (x ≠ k)) := by
    unfold missing
    rw [List.filter_filter]
    congr 1
    funext x
    rw [GoMap.get_set]
    by_cases hx : k = x
    · subst hx; simp
    · have : ¬ x = k := fun e => hx e.symm
      simp [hx, this]
  rw [e]
  exact List.length_filter_lt_length_iff_exists.2 ⟨k, List.mem_filter.2 ⟨hk, by simp [h]⟩, by simp⟩

theorem room_set {keys : List Str} {B : Nat} {m : GoMap Str (List α)} {k : Str} {l : List α} (hk : k ∈ keys) (h : m.get k = none)
    (hl : l.length ≤ B) : room keys B (m.set k l) ≤ room keys B m := by
  have h1 := missing_set (l := l) hk h
  have h2 := Nat.mul_le_mul_right (1 + B) h1
  rw [Nat.add_mul, Nat.one_mul] at h2
  unfold room
  rw [cells_set h]
  omega

theorem room_le (keys : List Str) (B : Nat) (m : GoMap Str (List α)) : room keys B m ≤ cells m + keys.length * (1 + B) := by
  unfold room missing
  have := Nat.mul_le_mul_right (1 + B) (List.length_filter_le (fun k => (m.get k).isNone) keys)
  omega

theorem cells_le_room (keys : List Str) (B : Nat) (m : GoMap Str (List α)) : cells m ≤ room keys B m := Nat.le_add_right ..

theorem length_le_cells (m : GoMap Str (List α)) : m.length ≤ cells m := by
  induction m with
  | nil => simp [cells]
  | cons e m ih => simp only [cells, List.map_cons, List.sum_cons, List.length_cons] at ih ⊢; omega

theorem set_length {m : GoMap Str (List α)} {k : Str} {l : List α} (h : m.get k = none) : (m.set k l).length = m.length + 1 := by
  have := congrArg List.length (GoMap.keys_set m k l)
  rw [if_neg (GoMap.get_none_iff.1 h)] at this
  simpa using this

/-! ## What a call may do to the caches -/

/-- The caches of `w'` are those of `w` with entries added. -/
structure Grown (names : List Str) (w w' : Mgr) : Prop where
  same : SameBut w w'
  hier : ∀ t l, w'.hierarchy.get t = some l → w.hierarchy.get t = some l ∨
    (t ∈ w.tenants.map (·.1) ∧ l.Nodup ∧ ∀ v ∈ l, ∃ x ∈ names, v = .str x ∧ Under w t x)
  pc : ∀ p I, w'.pcache.get p = some I → w.pcache.get p = some I ∨
    (p ∈ w.principals.map (·.1) ∧ I.Nodup ∧ ∀ x ∈ I, x ∈ names ∧ (Member w p x ∨ ∃ t, Manages w p t ∧ Under w t x))
  roomH : room (w.tenants.map (·.1)) names.length w'.hierarchy ≤ room (w.tenants.map (·.1)) names.length w.hierarchy
  roomP : room (w.principals.map (·.1)) names.length w'.pcache ≤ room (w.principals.map (·.1)) names.length w.pcache
  countH : w'.hierarchy.length + (missing (w.tenants.map (·.1)) w'.hierarchy).length ≤
    w.hierarchy.length + (missing (w.tenants.map (·.1)) w.hierarchy).length
  countP : w'.pcache.length + (missing (w.principals.map (·.1)) w'.pcache).length ≤
    w.pcache.length + (missing (w.principals.map (·.1)) w.pcache).length

theorem Grown.refl (names : List Str) (w : Mgr) : Grown names w w :=
  ⟨rfl, fun _ _ h => .inl h, fun _ _ h => .inl h, Nat.le_refl _, Nat.le_refl _, Nat.le_refl _, Nat.le_refl _⟩

theorem under_same (h : SameBut w w') {a x : Str} : Under w' a x ↔ Under w a x := by
  rw [show Under w' a x ↔ Under { w with hierarchy := w'.hierarchy, pcache := w'.pcache } a x from by rw [← h]]
  rfl

theorem member_same (h : SameBut w w') {p t : Str} : Member w' p t ↔ Member w p t := by
  rw [show Member w' p t ↔ Member { w with hierarchy := w'.hierarchy, pcache := w'.pcache } p t from by rw [← h]]
  rfl

theorem manages_same (h : SameBut w w') {p t : Str} : Manages w' p t ↔ Manages w p t := by
  rw [show Manages w' p t ↔ Manages { w with hierarchy := w'.hierarchy, pcache := w'.pcache } p t from by rw [← h]]
  rfl

theorem Grown.trans {a b c : Mgr} (h1 : Grown names a b) (h2 : Grown names b c) : Grown names a c := by
  have et : b.tenants = a.tenants := by rw [h1.same]
  have ep : b.principals = a.principals := by rw [h1.same]
  have r1 := h2.roomH
  have r2 := h2.roomP
  have c1 := h2.countH
  have c2 := h2.countP
  rw [et] at r1 c1
  rw [ep] at r2 c2
  refine ⟨h1.same.trans h2.same, fun t l h => ?_, fun p I h => ?_, Nat.le_trans r1 h1.roomH, Nat.le_trans r2 h1.roomP,
    Nat.le_trans c1 h1.countH, Nat.le_trans c2 h1.countP⟩
  · rcases h2.hier t l h with h | ⟨k1, k2, k3⟩
    · exact h1.hier t l h
    · refine .inr ⟨et ▸ k1, k2, fun v hv => ?_⟩
      obtain ⟨x, hx, e, hu⟩ := k3 v hv
      exact ⟨x, hx, e, (under_same h1.same).1 hu⟩
  · rcases h2.pc p I h with h | ⟨k1, k2, k3⟩
    · exact h1.pc p I h
    · refine .inr ⟨ep ▸ k1, k2, fun x hx => ⟨(k3 x hx).1, (k3 x hx).2.imp (member_same h1.same).1 ?_⟩⟩
      rintro ⟨t, hm, hu⟩
      exact ⟨t, (manages_same h1.same).1 hm, (under_same h1.same).1 hu⟩

theorem under_names (hn : TenantNames w names) {a x : Str} (h : Under w a x) : x ∈ names := by
  obtain ⟨c, _, d, t, _, ht, rfl⟩ := h
  exact hn.objs t (List.mem_of_getElem? ht)

theorem names_same (h : SameBut w w') (hn : TenantNames w names) : TenantNames w' names := by
  rw [h]; exact ⟨hn.rows, hn.objs⟩

/-- Values that are strings from `names`, none twice, are at most as many. -/
theorem vals_le {l : List Val} (hd : l.Nodup) (hl : ∀ v ∈ l, ∃ x ∈ names, v = .str x) : l.length ≤ names.length := by
  have : l ⊆ names.map Val.str := fun v hv => by
    obtain ⟨x, hx, rfl⟩ := hl v hv
    exact List.mem_map.2 ⟨x, hx, rfl⟩
  simpa using (List.subperm_of_subset hd this).length_le

theorem tenantChildren_grown (inv : w.Inv) (hn : TenantNames w names) {fuel : Nat} {site : List Val} {id : Str} {l : List Val}
    (h : w.tenantChildren o fuel site id = .ok (l, w')) : Grown names w w' := by
  have spec := tenantChildren_spec inv h
  unfold tenantChildren at h
  split at h
  · cases h; exact .refl ..
  · rename_i hh
    split at h
    · cases h; exact .refl ..
    · rename_i c hc
      obtain ⟨ds, h1, h2⟩ := Out.map_eq_ok.1 h
      cases h2
      have hk : id ∈ w.tenants.map (·.1) := List.mem_map.2 ⟨_, GoMap.get_some_mem hc, rfl⟩
      have nd := (C12_compact (ds.map Val.str)).1
      have hv : ∀ v ∈ compact (ds.map Val.str), ∃ x ∈ names, v = .str x ∧ Under w id x := fun v hv => by
        obtain ⟨x, e, hu⟩ := spec.2.2.1 v (((C12_compact _).2.1 v).1 hv)
        exact ⟨x, under_names hn hu, e, hu⟩
      have len : (compact (ds.map Val.str)).length ≤ names.length :=
        vals_le nd fun v h => by obtain ⟨x, hx, e, _⟩ := hv v h; exact ⟨x, hx, e⟩
      refine ⟨rfl, fun t l' hl => ?_, fun _ _ h => .inl h, room_set hk hh len, Nat.le_refl _, ?_, Nat.le_refl _⟩
      · rw [GoMap.get_set] at hl
        split at hl
        · rename_i e
          subst e
          cases hl
          exact .inr ⟨hk, nd, hv⟩
        · exact .inl hl
      · have := missing_set (l := compact (ds.map Val.str)) hk hh
        have e := set_length (l := compact (ds.map Val.str)) hh
        show (w.hierarchy.set id (compact (ds.map Val.str))).length + (missing _ (w.hierarchy.set id (compact (ds.map Val.str)))).length ≤ _
        omega

theorem addDescs_nodup {E E' : List Str} {l : List Val} (hE : E.Nodup) (h : addDescs E l = .ok E') : E'.Nodup := by
  induction l generalizing E with
  | nil => cases h; exact hE
  | cons v l ih =>
    cases v with
    | nil => exact ih hE h
    | str s =>
      rw [addDescs] at h
      refine ih ?_ h
      split
      · exact hE
      · rename_i hs
        rw [List.nodup_append]
        exact ⟨hE, by simp, fun a ha b hb e => hs (by rw [← List.mem_singleton.1 hb, ← e]; exact ha)⟩
    | bool b => cases h
    | int i => cases h

theorem nodup_snoc {E : List Str} {t : Str} (hE : E.Nodup) (h : t ∉ E) : (E ++ [t]).Nodup := by
  rw [List.nodup_append]
  exact ⟨hE, by simp, fun a ha b hb e => h (by rw [← List.mem_singleton.1 hb, ← e]; exact ha)⟩

theorem implicitLoop_grown {fuel : Nat} {site : List Val} {rows : List Data} {i : Nat} {E E' : List Str} {w w' : Mgr}
    (inv : w.Inv) (hn : TenantNames w names) (hE : E.Nodup) (h : implicitLoop o fuel site i rows E w = .ok (E', w')) :
    Grown names w w' ∧ E'.Nodup := by
  induction rows generalizing i E w with
  | nil => cases h; exact ⟨.refl .., hE⟩
  | cons row rows ih =>
    rw [implicitLoop] at h
    split at h
    · rename_i t ht
      split at h
      · exact ih inv hn hE h
      · rename_i hnE
        split at h
        · obtain ⟨⟨l, w1⟩, h1, h⟩ := Out.bind_eq_ok.1 h
          obtain ⟨E1, h2, h3⟩ := Out.bind_eq_ok.1 h
          have g := tenantChildren_grown inv hn h1
          have inv1 := (tenantChildren_spec inv h1).1
          obtain ⟨k1, k2⟩ := ih inv1 (names_same g.same hn) (addDescs_nodup (nodup_snoc hE hnE) h2) h3
          exact ⟨g.trans k1, k2⟩
        · exact ih inv hn (nodup_snoc hE hnE) h
    · cases h

theorem implicitTenants_grown (inv : w.Inv) (hn : TenantNames w names) {fuel : Nat} {site : List Val} {p : Str} {I : List Str}
    (hp : p ∈ w.principals.map (·.1)) (h : w.implicitTenants o fuel site p = .ok (I, w')) : Grown names w w' := by
  unfold implicitTenants at h
  split at h
  · cases h; exact .refl ..
  · rename_i hh
    obtain ⟨⟨E, w1⟩, h1, h2⟩ := Out.map_eq_ok.1 h
    cases h2
    obtain ⟨g, nd⟩ := implicitLoop_grown inv hn List.nodup_nil h1
    obtain ⟨inv1, s1, _, _, sp, _⟩ := implicitLoop_spec inv h1
    have epc : w1.pcache = w.pcache := by rw [s1]
    have hI : ∀ x ∈ E, x ∈ names ∧ (Member w p x ∨ ∃ t, Manages w p t ∧ Under w t x) := fun x hx => by
      rcases sp x hx with hx | ⟨row, hr, t, et, hx⟩
      · cases hx
      · obtain ⟨hs, ep, _⟩ := (mem_rowsOf inv).1 hr
        rcases hx with rfl | ⟨em, hu⟩
        · exact ⟨hn.rows row hs _ et, .inl ⟨row, hs, ep, et⟩⟩
        · exact ⟨under_names hn hu, .inr ⟨t, ⟨row, hs, ep, et, em⟩, hu⟩⟩
    have len : E.length ≤ names.length := (List.subperm_of_subset nd fun x hx => (hI x hx).1).length_le
    refine g.trans ⟨rfl, fun _ _ h => .inl h, fun q J hq => ?_, Nat.le_refl _, ?_, Nat.le_refl _, ?_⟩
    · rw [GoMap.get_set] at hq
      split at hq
      · rename_i e
        subst e
        cases hq
        have ep : w1.principals = w.principals := by rw [s1]
        refine .inr ⟨ep ▸ hp, nd, fun x hx => ⟨(hI x hx).1, (hI x hx).2.imp (member_same g.same).2 ?_⟩⟩
        rintro ⟨t, hm, hu⟩
        exact ⟨t, (manages_same g.same).2 hm, (under_same g.same).2 hu⟩
      · exact .inl hq
    · have ep : w1.principals = w.principals := by rw [s1]
      exact room_set (ep ▸ hp) (epc ▸ hh) len
    · have ep : w1.principals = w.principals := by rw [s1]
      have hh1 : w1.pcache.get p = none := epc ▸ hh
      have := missing_set (l := E) (ep ▸ hp : p ∈ w1.principals.map (·.1)) hh1
      have e := set_length (l := E) hh1
      show (w1.pcache.set p E).length + (missing _ (w1.pcache.set p E)).length ≤ _
      omega

theorem authorize_grown (inv : w.Inv) (hn : TenantNames w names) {fuel : Nat} {site : List Val} {p : Str} {opts : List Opt} {b : Bool}
    (h : w.authorize o fuel site p opts = .ok (b, w')) : Grown names w w' := by
  rcases authorize_inv h with ⟨rfl, _⟩ | ⟨hp, I, hI⟩
  · exact .refl ..
  · refine implicitTenants_grown inv hn ?_ hI
    cases hg : w.principals.get p with
    | none => exact absurd hg hp
    | some c => exact List.mem_map.2 ⟨_, GoMap.get_some_mem hg, rfl⟩

theorem run_grown {ops : List MOp} (inv : w.Inv) (hn : TenantNames w names) (ho : OnlyAuthorize ops) (h : MOp.run w ops = .ok w') :
    Grown names w w' := by
  induction ops generalizing w with
  | nil => cases h; exact .refl ..
  | cons op ops ih =>
    rw [MOp.run, Out.bind_eq_ok] at h
    obtain ⟨w1, h1, h2⟩ := h
    have inv1 := MOp.apply_inv inv h1
    obtain ⟨o, fuel, site, p, opts, rfl⟩ := ho op (List.mem_cons_self ..)
    obtain ⟨⟨b, w2⟩, h3, rfl⟩ := Out.map_eq_ok.1 h1
    have g := authorize_grown inv hn h3
    exact g.trans (ih inv1 (names_same g.same hn) (fun op h => ho op (List.mem_cons_of_mem _ h)) h2)

end Mem

/-! ## C140 -/

/-- C140. After any number of calls of `Authorize` nothing but the two caches has changed.  An entry of the principal
cache is an old one or that of a registered principal, a set of tenants the principal is a member of or manages.  An
entry of the hierarchy cache is an old one or that of a registered tenant, a set of tenants below it. -/
theorem C140_entries {w w' : Mgr} (inv : w.Inv) {ops : List MOp} (ho : OnlyAuthorize ops) (h : MOp.run w ops = .ok w') :
    w' = { w with hierarchy := w'.hierarchy, pcache := w'.pcache } ∧
    (∀ p I, w'.pcache.get p = some I → w.pcache.get p = some I ∨
      (p ∈ w.principals.map (·.1) ∧ I.Nodup ∧ ∀ x ∈ I, Member w p x ∨ ∃ t, Manages w p t ∧ Under w t x)) ∧
    (∀ t l, w'.hierarchy.get t = some l → w.hierarchy.get t = some l ∨
      (t ∈ w.tenants.map (·.1) ∧ l.Nodup ∧ ∀ v ∈ l, ∃ x, v = .str x ∧ Under w t x)) := by
  have hn : TenantNames w ((w.log.filterMap fun r => match r.tenant with | .str t => some t | _ => none) ++ w.tobjs.map (·.id)) := by
    refine ⟨fun row hr t e => List.mem_append_left _ (List.mem_filterMap.2 ⟨row, stored_log hr, by rw [e]⟩),
      fun t ht => List.mem_append_right _ (List.mem_map.2 ⟨t, ht, rfl⟩)⟩
  have g := Mem.run_grown inv hn ho h
  refine ⟨g.same, fun p I hp => (g.pc p I hp).imp id fun k => ⟨k.1, k.2.1, fun x hx => (k.2.2 x hx).2⟩,
    fun t l ht => (g.hier t l ht).imp id fun k => ⟨k.1, k.2.1, fun v hv => ?_⟩⟩
  obtain ⟨x, _, e, hu⟩ := k.2.2 v hv
  exact ⟨x, e, hu⟩

/-- C140. However many calls of `Authorize` are made, the two caches gain at most one entry for each registered
principal and tenant, and every entry takes at most one cell for its key and one for each tenant named in a stored row
or in a tenant object. -/
theorem C140_bounded {w w' : Mgr} (inv : w.Inv) {names : List Str} (hn : TenantNames w names) {ops : List MOp} (ho : OnlyAuthorize ops)
    (h : MOp.run w ops = .ok w') :
    w'.pcache.length ≤ w.pcache.length + w.principals.length ∧ w'.hierarchy.length ≤ w.hierarchy.length + w.tenants.length ∧
    cells w'.pcache ≤ cells w.pcache + w.principals.length * (1 + names.length) ∧
    cells w'.hierarchy ≤ cells w.hierarchy + w.tenants.length * (1 + names.length) := by
  have g := Mem.run_grown inv hn ho h
  have hm : ∀ {α} (ks : List Str) (m : GoMap Str (List α)), (Mem.missing ks m).length ≤ ks.length := fun ks m => List.length_filter_le ..
  refine ⟨?_, ?_, ?_, ?_⟩
  · have h1 := g.countP
    have h2 := hm (w.principals.map (·.1)) w.pcache
    rw [List.length_map] at h2
    omega
  · have h1 := g.countH
    have h2 := hm (w.tenants.map (·.1)) w.hierarchy
    rw [List.length_map] at h2
    omega
  · have h1 := Nat.le_trans (Mem.cells_le_room _ _ _) (Nat.le_trans g.roomP (Mem.room_le _ _ _))
    rwa [List.length_map] at h1
  · have h1 := Nat.le_trans (Mem.cells_le_room _ _ _) (Nat.le_trans g.roomH (Mem.room_le _ _ _))
    rwa [List.length_map] at h1

/-- C140. `GetImplicitTenants` called directly has no such bound: it adds an entry for every text it is asked about
that no stored row mentions and that is not in the cache yet, registered or not. -/
theorem C140_asked {w : Mgr} (inv : w.Inv) {o : Ord} {fuel : Nat} {site : List Val} {ps : List Str} (hd : ps.Nodup)
    (hnew : ∀ p ∈ ps, w.pcache.get p = none) (hrow : ∀ p ∈ ps, ∀ row, Stored w row → row.principal ≠ .str p) :
    ∃ w', MOp.run w (ps.map (.implicitTenants o fuel site)) = .ok w' ∧ w' = { w with pcache := w'.pcache } ∧
      w'.pcache.length = w.pcache.length + ps.length := by
  induction ps generalizing w with
  | nil => exact ⟨w, rfl, rfl, rfl⟩
  | cons p ps ih =>
    have hs : w.search o (site ++ [.int 0]) { principal := .str p } filterTenantsByPrincipal = [] :=
      List.eq_nil_iff_forall_not_mem.2 fun row hr => by
        obtain ⟨h1, h2, _⟩ := (mem_rowsOf inv).1 hr
        exact hrow p (List.mem_cons_self ..) row h1 h2
    have e : w.implicitTenants o fuel site p = .ok ([], { w with pcache := w.pcache.set p [] }) := by
      unfold implicitTenants
      rw [hnew p (List.mem_cons_self ..), hs]
      rfl
    have inv1 := (implicitTenants_inv inv e).1
    obtain ⟨hp, hd'⟩ := List.nodup_cons.1 hd
    obtain ⟨w', h1, h2, h3⟩ := ih inv1 hd' (fun q hq => by
      have hne : ¬ p = q := fun e => hp (by rw [e]; exact hq)
      rw [GoMap.get_set, if_neg hne]
      exact hnew q (List.mem_cons_of_mem _ hq)) (fun q hq => hrow q (List.mem_cons_of_mem _ hq))
    refine ⟨w', ?_, h2, ?_⟩
    · rw [List.map_cons, MOp.run, MOp.apply, e]; exact h1
    · have := Mem.set_length (l := ([] : List Str)) (hnew p (List.mem_cons_self ..))
      rw [h3, List.length_cons]
      show (w.pcache.set p []).length + _ = _
      omega

/-- Two tenants, the second below the first; `m` manages the first, `q` is a member of the second. -/
def exMemory : List MOp := [.newTenant (str "a"), .newTenant (str "b"), .addTenant 0, .addTenant 1, .tAddDescendant 0 [1],
  .addPrincipal (str "m") 0, .addPrincipal (str "q") 1, 
  .addData { principal := .str (str "m"), tenant := .str (str "a"), manage := .bool true },
  .addData { principal := .str (str "q"), tenant := .str (str "b") }]

/-- Calls of `Authorize`: two principals, one of them twice, and texts that are not principals. -/
def exAsked : List MOp := [.authorize .fwd 9 [] (str "m") [.tenant (.str (str "b"))], .authorize .rev 9 [] (str "x") [],
  .authorize .fwd 9 [] (str "q") [], .authorize .fwd 9 [] (str "y") [], .authorize .fwd 9 [] (str "m") []]

example : OnlyAuthorize exAsked := fun op h => by
  simp only [exAsked, List.mem_cons, List.not_mem_nil, or_false] at h
  rcases h with h | h | h | h | h <;> exact ⟨_, _, _, _, _, h⟩

/-- Five calls leave one entry for each principal and one for the managed tenant. -/
example : ∃ w, MOp.run {} exMemory = .ok w ∧ w.pcache = [] ∧ w.hierarchy = [] ∧ w.principals.length = 2 ∧ w.tenants.length = 2 ∧
    (MOp.run w exAsked).Chk fun v => v.pcache = [(str "m", [str "a", str "b"]), (str "q", [str "b"])] ∧
      v.hierarchy = [(str "a", [.str (str "b")])] ∧ (v.pcache.map fun e => 1 + e.2.length).sum = 5 :=
  Out.chk_ok (by decide +kernel)

/-- The same texts given to `GetImplicitTenants` leave an entry each. -/
example : ∃ w, MOp.run {} exMemory = .ok w ∧
    (MOp.run w ([str "x", str "y", str "z"].map (.implicitTenants .fwd 9 []))).Chk fun v => v.principals.length = 2 ∧
      v.pcache = [(str "x", []), (str "y", []), (str "z", [])] :=
  Out.chk_ok (by decide +kernel)

end Mgr
end Verif
