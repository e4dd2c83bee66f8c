import Verif.Props.SearchOrder
import Verif.Props.AuthConc

/-!
# Which implicit tenants depend on the iteration order (C25, C116)
-/

namespace Verif
open Spec

/-! ## The loop over the rows, for a given order -/

/-- The first row of tenant `a` in the list has `ManageDescendants`. -/
def FirstManages (M : List Data) (a : Str) : Prop := ∃ r, M.find? (fun r => r.tenant = .str a) = some r ∧ r.manage = .bool true

/-- What the rows `M`, taken in this order, give. -/
def Got (w : Mgr) (M : List Data) (x : Str) : Prop := (∃ r ∈ M, r.tenant = .str x) ∨ ∃ a, FirstManages M a ∧ Under w a x

theorem firstManages_snoc {M : List Data} {r : Data} {a : Str} :
    FirstManages (M ++ [r]) a ↔ FirstManages M a ∨ (∀ x ∈ M, x.tenant ≠ .str a) ∧ r.tenant = .str a ∧ r.manage = .bool true := by
  unfold FirstManages
  rw [List.find?_append]
  cases h : M.find? (fun r => r.tenant = .str a) with
  | some y =>
    have := List.mem_of_find?_eq_some h
    have h2 := List.find?_some h
    simp only [decide_eq_true_eq] at h2
    simp only [Option.some_or, Option.some.injEq]
    constructor
    · exact .inl
    · rintro (h | ⟨hn, _⟩)
      · exact h
      · exact absurd h2 (hn y this)
  | none =>
    have hn : ∀ x ∈ M, x.tenant ≠ .str a := by
      intro x hx
      have := List.find?_eq_none.1 h x hx
      simpa using this
    simp only [Option.none_or, List.find?_cons, List.find?_nil]
    constructor
    · rintro ⟨y, hy, hm⟩
      split at hy
      · rename_i hd
        cases hy
        exact .inr ⟨hn, by simpa using hd, hm⟩
      · cases hy
    · rintro (⟨y, hy, _⟩ | ⟨_, ht, hm⟩)
      · cases hy
      · exact ⟨r, by simp [ht], hm⟩

theorem implicitLoop_exact {o : Ord} {fuel : Nat} {site : List Val} {w0 : Mgr} (inv0 : w0.Inv) (hl : LinksRegistered w0) {pre rows : List Data}
    {i : Nat} {E E' : List Str} {w w' : Mgr} (hw : w = { w0 with hierarchy := w.hierarchy }) (inv : w.Inv)
    (hf : Mgr.HierFresh w) (hE : ∀ x, x ∈ E ↔ Got w0 pre x)
    (h : Mgr.implicitLoop o fuel site i rows E w = .ok (E', w')) : ∀ x, x ∈ E' ↔ Got w0 (pre ++ rows) x := by
  have hund : ∀ {w : Mgr}, w = { w0 with hierarchy := w.hierarchy } → ∀ {a x}, Under w a x ↔ Under w0 a x := by
    intro w hw a x; rw [hw]; exact Mgr.under_hier
  induction rows generalizing i E w pre with
  | nil => cases h; simpa using hE
  | cons row rows ih =>
    rw [Mgr.implicitLoop] at h
    split at h
    · rename_i t ht
      have hsplit : pre ++ row :: rows = (pre ++ [row]) ++ rows := by simp
      rw [hsplit]
      have hmem : ∀ x : Str, (∃ r ∈ pre ++ [row], r.tenant = .str x) ↔ (∃ r ∈ pre, r.tenant = .str x) ∨ x = t := by
        intro x
        constructor
        · rintro ⟨r, hr, e⟩
          rcases List.mem_append.1 hr with hr | hr
          · exact .inl ⟨r, hr, e⟩
          · rw [List.mem_singleton.1 hr, ht] at e; cases e; exact .inr rfl
        · rintro (⟨r, hr, e⟩ | rfl)
          · exact ⟨r, by simp [hr], e⟩
          · exact ⟨row, by simp, ht⟩
      split at h
      · rename_i hEt
        refine ih hw inv hf (fun x => ?_) h
        rw [hE x]
        unfold Got
        rw [hmem]
        constructor
        · rintro (h | ⟨a, ha, hx⟩)
          · exact .inl (.inl h)
          · exact .inr ⟨a, firstManages_snoc.2 (.inl ha), hx⟩
        · rintro ((h | rfl) | ⟨a, ha, hx⟩)
          · exact .inl h
          · exact (hE x).1 hEt
          · rcases firstManages_snoc.1 ha with ha | ⟨hn, hat, hm⟩
            · exact .inr ⟨a, ha, hx⟩
            · rw [ht] at hat; cases hat
              rcases (hE t).1 hEt with ⟨r, hr, h⟩ | ⟨b, hb, hbt⟩
              · exact absurd h (hn r hr)
              · exact .inr ⟨b, hb, under_trans inv0 hl hbt hx⟩
      · rename_i hEt
        have hpre : ∀ x ∈ pre, x.tenant ≠ .str t := fun x hx e => hEt ((hE t).2 (.inl ⟨x, hx, e⟩))
        split at h
        · rename_i hm
          rw [Out.bind_eq_ok] at h
          obtain ⟨⟨l, w1⟩, h1, h⟩ := h
          rw [Out.bind_eq_ok] at h
          obtain ⟨E1, h2, h⟩ := h
          obtain ⟨c1, c2, c3, c4, c5, c6, c7⟩ := Mgr.tenantChildren_spec inv h1
          have hstr : ∀ v ∈ l, ∃ x, v = .str x := fun v hv => (c3 v hv).imp fun x h => h.1
          have d := Mgr.addDescs_spec hstr h2
          have hcomp : ∀ x, Under w t x → .str x ∈ l := by
            intro x hx
            cases hg : w.hierarchy.get t with
            | none => exact c4 hg x hx
            | some l2 => obtain ⟨e, _⟩ := c7 l2 hg; rw [e]; exact hf t l2 hg x hx
          have hw1 : w1 = { w0 with hierarchy := w1.hierarchy } := by rw [c2]; rw [hw]
          have hf1 : Mgr.HierFresh w1 := by
            intro a l' hl' x hx
            have hx : Under w a x := (hund hw).2 ((hund hw1).1 hx)
            by_cases ha : a = t
            · subst ha; rw [c6 l' hl']; exact hcomp x hx
            · rw [c5 a ha] at hl'; exact hf a l' hl' x hx
          refine ih hw1 c1 hf1 (fun x => ?_) h
          rw [d x, List.mem_append, List.mem_singleton, hE x]
          unfold Got
          rw [hmem]
          constructor
          · rintro (((h | ⟨a, ha, hx⟩) | h) | h)
            · exact .inl (.inl h)
            · exact .inr ⟨a, firstManages_snoc.2 (.inl ha), hx⟩
            · exact .inl (.inr h)
            · obtain ⟨y, e, hy⟩ := c3 _ h
              cases e
              exact .inr ⟨t, firstManages_snoc.2 (.inr ⟨hpre, ht, hm⟩), (hund hw).1 hy⟩
          · rintro ((h | h) | ⟨a, ha, hx⟩)
            · exact .inl (.inl (.inl h))
            · exact .inl (.inr h)
            · rcases firstManages_snoc.1 ha with ha | ⟨_, hat, _⟩
              · exact .inl (.inl (.inr ⟨a, ha, hx⟩))
              · rw [ht] at hat; cases hat
                exact .inr (hcomp x ((hund hw).2 hx))
        · rename_i hm
          refine ih hw inv hf (fun x => ?_) h
          rw [List.mem_append, List.mem_singleton, hE x]
          unfold Got
          rw [hmem]
          constructor
          · rintro ((h | ⟨a, ha, hx⟩) | h)
            · exact .inl (.inl h)
            · exact .inr ⟨a, firstManages_snoc.2 (.inl ha), hx⟩
            · exact .inl (.inr h)
          · rintro ((h | h) | ⟨a, ha, hx⟩)
            · exact .inl (.inl h)
            · exact .inr h
            · rcases firstManages_snoc.1 ha with ha | ⟨_, _, hm'⟩
              · exact .inl (.inr ⟨a, ha, hx⟩)
              · exact absurd hm' hm
    · cases h

/-- C25. The implicit tenants for a given order: own tenants, and the descendants of those whose first row in this order has `ManageDescendants`. -/
theorem C25_in_order {w w' : Mgr} (inv : w.Inv) {o : Ord} {fuel : Nat} {site : List Val} {p : Str} {I : List Str}
    (hl : LinksRegistered w) (hf : Mgr.HierFresh w) (hfresh : w.pcache.get p = none) (h : w.implicitTenants o fuel site p = .ok (I, w')) (x : Str) :
    x ∈ I ↔ Member w p x ∨
      ∃ a, FirstManages (w.search o (site ++ [.int 0]) { principal := .str p } filterTenantsByPrincipal) a ∧ Under w a x := by
  unfold Mgr.implicitTenants at h
  rw [hfresh] at h
  obtain ⟨⟨E, w1⟩, h3, h4⟩ := Out.map_eq_ok.1 h
  cases h4
  rw [implicitLoop_exact inv hl (pre := []) rfl inv hf (fun x => by simp [Got, FirstManages]) h3 x]
  unfold Got
  rw [List.nil_append]
  refine or_congr_left ⟨?_, ?_⟩
  · rintro ⟨r, hr, ht⟩
    obtain ⟨h1, h2, _⟩ := (Mgr.mem_rowsOf inv).1 hr
    exact ⟨r, h1, h2, ht⟩
  · rintro ⟨r, h1, h2, ht⟩
    exact ⟨r, (Mgr.mem_rowsOf inv).2 ⟨h1, h2, by rw [ht]; simp⟩, ht⟩

/-! ## Orders with given first rows -/

/-- The number of keys two paths have in common at the start. -/
def lcp : List Val → List Val → Nat
  | x :: a, y :: b => if x = y then lcp a b + 1 else 0
  | _, _ => 0

theorem lcp_prefix {q r k : List Val} (h : q <+: r) : q <+: k ↔ q.length ≤ lcp k r := by
  induction q generalizing r k with
  | nil => simp
  | cons a q ih =>
    obtain ⟨b, rfl⟩ := h
    cases k with
    | nil => simp [lcp]
    | cons c k =>
      rw [List.cons_append, lcp, List.cons_prefix_cons]
      by_cases e : c = a
      · rw [if_pos e, List.length_cons, Nat.add_le_add_iff_right, ← ih (List.prefix_append _ _)]
        simp [e]
      · rw [if_neg e]
        simp only [List.length_cons, Nat.le_zero_eq, Nat.add_eq_zero_iff, Nat.one_ne_zero, and_false, iff_false, not_and]
        exact fun h => absurd h.symm e

theorem lcp_eq {q r k : List Val} (h : ¬ q <+: r) (hk : q <+: k) : lcp k r = lcp q r := by
  induction q generalizing r k with
  | nil => exact absurd List.nil_prefix h
  | cons a q ih =>
    obtain ⟨b, rfl⟩ := hk
    cases r with
    | nil => simp [lcp]
    | cons c r =>
      rw [List.cons_append, lcp, lcp]
      by_cases e : a = c
      · rw [if_pos e, if_pos e, ih (fun hq => h (List.cons_prefix_cons.2 ⟨e, hq⟩)) (List.prefix_append _ _)]
      · rw [if_neg e, if_neg e]

theorem lcp_le (k r : List Val) : lcp k r ≤ r.length := by
  fun_induction lcp k r <;> simp_all

section Front
variable {α : Type} {key : α → List Val}

/-- The list rearranged so that the rows nearest to `r` come first. -/
def front (key : α → List Val) (r : α) (B : List α) : List α :=
  (List.range (key r).length.succ).reverse.flatMap fun j => B.filter fun x => lcp (key x) (key r) = j

theorem mem_front {r x : α} {B : List α} : x ∈ front key r B ↔ x ∈ B := by
  unfold front
  simp only [List.mem_flatMap, List.mem_reverse, List.mem_range, List.mem_filter, decide_eq_true_eq]
  constructor
  · rintro ⟨_, _, h, _⟩; exact h
  · intro h; exact ⟨_, Nat.lt_succ_of_le (lcp_le _ _), h, rfl⟩

theorem front_nodup {r : α} {B : List α} (h : B.Nodup) : (front key r B).Nodup := by
  unfold front
  rw [List.nodup_flatMap]
  refine ⟨fun j _ => h.filter _, ?_⟩
  have : (List.range (key r).length.succ).reverse.Nodup := List.nodup_reverse.2 List.nodup_range
  refine List.Pairwise.imp (fun {i j} hij => ?_) this
  intro x h1 h2
  simp only [List.mem_filter, decide_eq_true_eq] at h1 h2
  exact hij (h1.2.symm.trans h2.2)

theorem front_perm {r : α} {B : List α} (h : B.Nodup) : (front key r B).Perm B :=
  (List.perm_ext_iff_of_nodup (front_nodup h) h).2 fun _ => mem_front

theorem front_class {r : α} {B : List α} (j : Nat) :
    (front key r B).filter (fun x => lcp (key x) (key r) = j) = B.filter fun x => lcp (key x) (key r) = j := by
  unfold front
  rw [List.filter_flatMap]
  have gen : ∀ l : List Nat, l.Nodup → (l.flatMap fun i => (B.filter fun x => lcp (key x) (key r) = i).filter fun x => lcp (key x) (key r) = j) =
      if j ∈ l then B.filter fun x => lcp (key x) (key r) = j else [] := by
    intro l hl
    induction l with
    | nil => rfl
    | cons i l ih =>
      rw [List.nodup_cons] at hl
      rw [List.flatMap_cons, ih hl.2, List.filter_filter]
      by_cases hij : i = j
      · subst hij
        rw [if_neg hl.1, if_pos (by simp), List.append_nil]
        exact List.filter_congr fun x _ => by simp
      · have : (B.filter fun x => decide (lcp (key x) (key r) = j) && decide (lcp (key x) (key r) = i)) = [] := by
          rw [List.filter_eq_nil_iff]
          intro x _
          simp only [Bool.and_eq_true, decide_eq_true_eq, not_and]
          intro h1 h2
          exact hij (h2.symm.trans h1)
        rw [this, List.nil_append]
        have hji : j ≠ i := fun h => hij h.symm
        simp [hji]
  rw [gen _ (List.nodup_reverse.2 List.nodup_range)]
  by_cases h : j < (key r).length.succ
  · rw [if_pos (by simpa using h)]
  · rw [if_neg (by simpa using h), eq_comm, List.filter_eq_nil_iff]
    intro x _ e
    simp only [decide_eq_true_eq] at e
    have := lcp_le (key x) (key r)
    omega

theorem front_mono {r : α} {B : List α} : (front key r B).Pairwise fun x y => lcp (key y) (key r) ≤ lcp (key x) (key r) := by
  unfold front
  rw [List.pairwise_flatMap]
  constructor
  · intro j _
    refine List.Pairwise.imp_of_mem (R := fun _ _ => True) (fun {x y} hx hy _ => ?_) (List.pairwise_of_forall fun _ _ => trivial)
    simp only [List.mem_filter, decide_eq_true_eq] at hx hy
    omega
  · rw [List.pairwise_reverse]
    refine List.Pairwise.imp (fun {i j} hij => ?_) List.pairwise_lt_range
    intro x hx y hy
    simp only [List.mem_filter, decide_eq_true_eq] at hx hy
    omega

theorem pairwise_two {R : α → α → Prop} {M : List α} (h : M.Pairwise R) {x y : α} (hs : [x, y].Sublist M) : R x y := by
  have := h.sublist hs
  simpa using this

theorem front_arranged {r : α} {B : List α} (hB : Arranged key B) (hr : ∀ y ∈ B, key y <+: key r → y = r) : Arranged key (front key r B) := by
  have same : ∀ {l : List α} {j : Nat}, l.Sublist (front key r B) → (∀ x ∈ l, lcp (key x) (key r) = j) → l.Sublist B := by
    intro l j hs hj
    have := hs.filter fun x => lcp (key x) (key r) = j
    rw [front_class, List.filter_eq_self.2 (by simpa using hj)] at this
    exact this.trans List.filter_sublist
  constructor
  · intro x y hs hp
    have hm := pairwise_two front_mono hs
    by_cases he : lcp (key x) (key r) = lcp (key y) (key r)
    · exact hB.1 x y (same hs (j := lcp (key y) (key r)) (by simp [he])) hp
    · by_cases hyr : key y <+: key r
      · have := hr y (mem_front.1 (hs.subset (by simp))) hyr
        subst this
        have h1 := (lcp_prefix (List.prefix_refl (key y)) (k := key y)).1 (List.prefix_refl _)
        have h2 := lcp_le (key x) (key y)
        omega
      · exact he (lcp_eq hyr hp)
  · intro x y z hs q hx hz
    have hxy := pairwise_two front_mono (hs := (show [x, y].Sublist [x, y, z] by simp).trans hs)
    have hyz := pairwise_two front_mono (hs := (show [y, z].Sublist [x, y, z] by simp).trans hs)
    by_cases hq : q <+: key r
    · have h1 := (lcp_prefix hq).1 hz
      exact (lcp_prefix hq).2 (by omega)
    · have h1 := lcp_eq hq hx
      have h2 := lcp_eq hq hz
      exact hB.2 x y z (same hs (j := lcp q (key r)) (by simp; omega)) q hx hz

theorem front_head {r : α} {B : List α} (hB : Arranged key B) (hr : r ∈ B) (hm : ∀ y ∈ B, key y <+: key r → y = r) : (front key r B).head? = some r := by
  have hA := front_arranged hB hm
  have hrf : r ∈ front key r B := mem_front.2 hr
  have hmono := front_mono (key := key) (r := r) (B := B)
  cases hf : front key r B with
  | nil => rw [hf] at hrf; cases hrf
  | cons y l =>
    rw [hf] at hrf hA hmono
    rcases List.mem_cons.1 hrf with rfl | h
    · rfl
    · have hs : [y, r].Sublist (y :: l) := List.Sublist.cons_cons _ (List.singleton_sublist.2 h)
      have h1 := pairwise_two hmono hs
      have h2 := (lcp_prefix (List.prefix_refl (key r)) (k := key r)).1 (List.prefix_refl _)
      have h3 := (lcp_prefix (List.prefix_refl (key r)) (k := key y)).2 (by omega)
      exact absurd h3 (hA.1 y r hs)

end Front

theorem filter_blocks {α κ : Type} [DecidableEq κ] {h : α → κ} {K : List κ} (hK : K.Nodup) {B : κ → List α} (hB : ∀ k ∈ K, ∀ x ∈ B k, h x = k)
    {t : κ} (ht : t ∈ K) : (K.flatMap B).filter (fun x => h x = t) = B t := by
  induction K with
  | nil => cases ht
  | cons k K ih =>
    rw [List.nodup_cons] at hK
    rw [List.flatMap_cons, List.filter_append]
    by_cases e : k = t
    · subst e
      rw [List.filter_eq_self.2 fun x hx => by simp [hB k (by simp) x hx], List.filter_flatMap, List.flatMap_eq_nil_iff.2, List.append_nil]
      intro k' hk'
      rw [List.filter_eq_nil_iff]
      intro x hx
      have := hB k' (by simp [hk']) x hx
      simp only [decide_eq_true_eq]
      rintro rfl
      exact hK.1 (this ▸ hk')
    · rw [List.filter_eq_nil_iff.2 fun x hx => by simp [hB k (by simp) x hx, e], List.nil_append]
      exact ih hK.2 (fun k' hk' => hB k' (by simp [hk'])) ((List.mem_cons.1 ht).resolve_left fun h => e h.symm)

/-! ## Which tenants are included sometimes and always -/

/-- A row of `p` that some order lists before the other rows of `p` in its tenant: its values do not start with the values of another one. -/
def MayComeFirst (w : Mgr) (p : Str) (r : Data) : Prop :=
  Stored w r ∧ r.principal = .str p ∧
    ∀ r', Stored w r' → r'.principal = .str p → r'.tenant = r.tenant → rowKey dataKeys r' <+: rowKey dataKeys r → r' = r

/-- The rows of `p`, as `GetImplicitTenants` lists them. -/
def ownRows (w : Mgr) (o : Ord) (site : List Val) (p : Str) : List Data :=
  w.search o (site ++ [.int 0]) { principal := .str p } filterTenantsByPrincipal

theorem ownRows_order {w : Mgr} (inv : w.Inv) (site : List Val) (p : Str) (M : List Data) : (∃ o, ownRows w o site p = M) ↔
    M.Perm ((survivors (rowKey dataKeys) w.log).filter (filterTenantsByPrincipal { principal := .str p })) ∧ Arranged (rowKey dataKeys) M :=
  inv.trie.search_order (site ++ [Val.int 0]) (filterTenantsByPrincipal { principal := .str p }) M

theorem rowKey_tenant {r : Data} (h : r.tenant ≠ .nil) : ∃ ks, rowKey dataKeys r = r.tenant :: ks :=
  ⟨_, by simp only [rowKey, dataKeys, Option.getD_some]; rw [List.filter_cons_of_pos (by simpa using h)]⟩

theorem first_may {w : Mgr} (inv : w.Inv) {o : Ord} {site : List Val} {p a : Str} {r : Data}
    (h : (ownRows w o site p).find? (fun r => r.tenant = .str a) = some r) : MayComeFirst w p r ∧ r.tenant = .str a := by
  have hm := List.mem_of_find?_eq_some h
  have ht := List.find?_some h
  simp only [decide_eq_true_eq] at ht
  obtain ⟨h1, h2, h3⟩ := (Mgr.mem_rowsOf inv).1 hm
  refine ⟨⟨h1, h2, fun r' k1 k2 k3 k4 => ?_⟩, ht⟩
  have ha := ((ownRows_order inv site p _).1 ⟨o, rfl⟩).2
  have hm' : r' ∈ ownRows w o site p := (Mgr.mem_rowsOf inv).2 ⟨k1, k2, by rw [k3]; exact h3⟩
  by_cases e : r' = r
  · exact e
  · rw [← List.head?_filter] at h
    have hf : r' ∈ (ownRows w o site p).filter fun r => r.tenant = .str a := List.mem_filter.2 ⟨hm', by simp [k3, ht]⟩
    cases hl : (ownRows w o site p).filter fun r => r.tenant = .str a with
    | nil => rw [hl] at h; cases h
    | cons y l =>
      rw [hl] at h hf
      cases h
      have hs : [r, r'].Sublist (r :: l) := List.Sublist.cons_cons _ (List.singleton_sublist.2 ((List.mem_cons.1 hf).resolve_left e))
      rw [← hl] at hs
      exact absurd k4 (ha.1 r r' (hs.trans List.filter_sublist))

/-- Any choice of rows that may come first is met by some order. -/
theorem exists_order {w : Mgr} (inv : w.Inv) (site : List Val) (p : Str) (c : Val → Option Data)
    (hc : ∀ t r, c t = some r → MayComeFirst w p r ∧ r.tenant = t ∧ t ≠ .nil) :
    ∃ o, ∀ t r, c t = some r → (ownRows w o site p).find? (fun r => r.tenant = t) = some r := by
  obtain ⟨hp, ha⟩ := (ownRows_order inv site p (ownRows w .fwd site p)).1 ⟨_, rfl⟩
  have hmem : ∀ {x}, x ∈ ownRows w .fwd site p ↔ Stored w x ∧ x.principal = .str p ∧ x.tenant ≠ .nil := Mgr.mem_rowsOf inv
  generalize ownRows w .fwd site p = M0 at hp ha hmem
  have hn0 : M0.Nodup := hp.nodup_iff.2 ((survivors_nodup _).filter _)
  let K := compact (M0.map (·.tenant))
  have hK : K.Nodup := (C12_compact _).1
  have hKm : ∀ v, v ∈ K ↔ ∃ x ∈ M0, x.tenant = v := fun v => by
    rw [(C12_compact (M0.map (·.tenant))).2.1 v, List.mem_map]
  let B : Val → List Data := fun t => match c t with
    | some r => front (rowKey dataKeys) r (M0.filter fun x => x.tenant = t)
    | none => M0.filter fun x => x.tenant = t
  have hBm : ∀ t x, x ∈ B t ↔ x ∈ M0 ∧ x.tenant = t := by
    intro t x
    simp only [B]
    split
    · rw [mem_front]; simp
    · simp
  have hlow : ∀ {t r}, c t = some r → ∀ y ∈ M0.filter (fun x => x.tenant = t), rowKey dataKeys y <+: rowKey dataKeys r → y = r := by
    intro t r h y hy hpre
    obtain ⟨⟨_, _, h3⟩, h4, _⟩ := hc t r h
    obtain ⟨hy, ht⟩ := List.mem_filter.1 hy
    obtain ⟨k1, k2, _⟩ := hmem.1 hy
    simp only [decide_eq_true_eq] at ht
    exact h3 y k1 k2 (ht.trans h4.symm) hpre
  have hBa : ∀ t, Arranged (rowKey dataKeys) (B t) := by
    intro t
    simp only [B]
    split
    · rename_i r h
      exact front_arranged (ha.sublist List.filter_sublist) (hlow h)
    · exact ha.sublist List.filter_sublist
  have hBn : ∀ t, (B t).Nodup := by
    intro t
    simp only [B]
    split
    · exact front_nodup (hn0.filter _)
    · exact hn0.filter _
  have hMn : (K.flatMap B).Nodup := by
    rw [List.nodup_flatMap]
    refine ⟨fun t _ => hBn t, List.Pairwise.imp (fun {i j} hij => ?_) hK⟩
    intro x h1 h2
    exact hij (((hBm i x).1 h1).2.symm.trans ((hBm j x).1 h2).2)
  have hMp : (K.flatMap B).Perm M0 := by
    refine (List.perm_ext_iff_of_nodup hMn hn0).2 fun x => ?_
    simp only [List.mem_flatMap, hBm]
    constructor
    · rintro ⟨_, _, h, _⟩; exact h
    · intro h; exact ⟨x.tenant, (hKm _).2 ⟨x, h, rfl⟩, h, rfl⟩
  obtain ⟨o, ho⟩ := (ownRows_order inv site p (K.flatMap B)).2 ⟨hMp.trans hp, Arranged.flatMap (hd := id) (by simpa using hK) (fun t _ => hBa t)
    fun t _ x hx => by
      obtain ⟨h1, h2⟩ := (hBm t x).1 hx
      rw [← h2]
      exact rowKey_tenant (hmem.1 h1).2.2⟩
  refine ⟨o, fun t r h => ?_⟩
  obtain ⟨⟨h1, h2, _⟩, h4, h5⟩ := hc t r h
  have hr : r ∈ M0 := hmem.2 ⟨h1, h2, by rw [h4]; exact h5⟩
  have hrB : r ∈ M0.filter fun x => x.tenant = t := List.mem_filter.2 ⟨hr, by simp [h4]⟩
  rw [ho, ← List.head?_filter, filter_blocks (h := (·.tenant)) hK (fun k _ x hx => ((hBm k x).1 hx).2) ((hKm t).2 ⟨r, hr, h4⟩)]
  simp only [B, h]
  exact front_head (ha.sublist List.filter_sublist) hrB (hlow h)

/-- Own tenants, and the descendants of tenants of which a row with `ManageDescendants` may come first. -/
def MayInclude (w : Mgr) (p : Str) (x : Str) : Prop :=
  Member w p x ∨ ∃ r a, MayComeFirst w p r ∧ r.tenant = .str a ∧ r.manage = .bool true ∧ Under w a x

/-- Own tenants, and the descendants of own tenants of which every row that may come first has `ManageDescendants`. -/
def MustInclude (w : Mgr) (p : Str) (x : Str) : Prop :=
  Member w p x ∨ ∃ a, Member w p a ∧ (∀ r, MayComeFirst w p r → r.tenant = .str a → r.manage = .bool true) ∧ Under w a x

variable {w : Mgr} {fuel : Nat} {site : List Val} {p : Str}

theorem include_may (inv : w.Inv) (hl : LinksRegistered w) (hf : Mgr.HierFresh w) (hfresh : w.pcache.get p = none) {o : Ord} {I : List Str} {w' : Mgr}
    (h : w.implicitTenants o fuel site p = .ok (I, w')) {x : Str} (hx : x ∈ I) : MayInclude w p x := by
  refine ((C25_in_order inv hl hf hfresh h x).1 hx).imp id ?_
  rintro ⟨a, ⟨r, h1, h2⟩, h3⟩
  obtain ⟨h4, h5⟩ := first_may inv h1
  exact ⟨r, a, h4, h5, h2, h3⟩

theorem must_include (inv : w.Inv) (hl : LinksRegistered w) (hf : Mgr.HierFresh w) (hfresh : w.pcache.get p = none) {o : Ord} {I : List Str} {w' : Mgr}
    (h : w.implicitTenants o fuel site p = .ok (I, w')) {x : Str} (hx : MustInclude w p x) : x ∈ I := by
  rcases hx with hm | ⟨a, ⟨r0, k1, k2, k3⟩, h2, h3⟩
  · exact (C25_in_order inv hl hf hfresh h x).2 (.inl hm)
  · refine (C25_in_order inv hl hf hfresh h x).2 (.inr ⟨a, ?_, h3⟩)
    cases hfd : (ownRows w o site p).find? (fun r => r.tenant = .str a) with
    | none =>
      have := List.find?_eq_none.1 hfd r0 ((Mgr.mem_rowsOf inv).2 ⟨k1, k2, by rw [k3]; simp⟩)
      simp [k3] at this
    | some r =>
      obtain ⟨h4, h5⟩ := first_may inv hfd
      exact ⟨r, hfd, h2 r h4 h5⟩

/-- An order that includes nothing but what every order includes: it lists a row without `ManageDescendants` first wherever one may come first. -/
theorem exists_least (inv : w.Inv) (hl : LinksRegistered w) (hf : Mgr.HierFresh w) (hfresh : w.pcache.get p = none) (site : List Val) :
    ∃ o, ∀ {I w'}, w.implicitTenants o fuel site p = .ok (I, w') → ∀ x, x ∈ I ↔ MustInclude w p x := by
  let c : Val → Option Data := fun t => open Classical in
    if h : t ≠ .nil ∧ ∃ r, MayComeFirst w p r ∧ r.tenant = t ∧ r.manage ≠ .bool true then some h.2.choose else none
  obtain ⟨o, ho⟩ := exists_order inv site p c (by
    intro t r h
    simp only [c] at h
    split at h
    · rename_i hh
      cases h
      exact ⟨hh.2.choose_spec.1, hh.2.choose_spec.2.1, hh.1⟩
    · cases h)
  refine ⟨o, fun {I w'} h x => ⟨fun hx => ?_, must_include inv hl hf hfresh h⟩⟩
  refine ((C25_in_order inv hl hf hfresh h x).1 hx).imp id ?_
  rintro ⟨a, ⟨r, h1, h2⟩, h3⟩
  obtain ⟨h4, h5⟩ := first_may inv h1
  refine ⟨a, ⟨r, h4.1, h4.2.1, h5⟩, fun r' k1 k2 => ?_, h3⟩
  by_cases hm : r'.manage = .bool true
  · exact hm
  · exfalso
    have hh : (Val.str a) ≠ .nil ∧ ∃ r, MayComeFirst w p r ∧ r.tenant = .str a ∧ r.manage ≠ .bool true := ⟨by simp, r', k1, k2, hm⟩
    have hca : c (.str a) = some hh.2.choose := by simp only [c]; rw [dif_pos hh]
    have := ho _ _ hca
    change (ownRows w o site p).find? _ = _ at h1
    rw [this] at h1
    cases h1
    exact hh.2.choose_spec.2.2 h2

/-- An order that includes all that any order includes. -/
theorem exists_most (inv : w.Inv) (hl : LinksRegistered w) (hf : Mgr.HierFresh w) (hfresh : w.pcache.get p = none) (site : List Val) :
    ∃ o, ∀ {I w'}, w.implicitTenants o fuel site p = .ok (I, w') → ∀ x, x ∈ I ↔ MayInclude w p x := by
  let c : Val → Option Data := fun t => open Classical in
    if h : t ≠ .nil ∧ ∃ r, MayComeFirst w p r ∧ r.tenant = t ∧ r.manage = .bool true then some h.2.choose else none
  obtain ⟨o, ho⟩ := exists_order inv site p c (by
    intro t r h
    simp only [c] at h
    split at h
    · rename_i hh
      cases h
      exact ⟨hh.2.choose_spec.1, hh.2.choose_spec.2.1, hh.1⟩
    · cases h)
  refine ⟨o, fun {I w'} h x => ⟨include_may inv hl hf hfresh h, fun hx => ?_⟩⟩
  refine (C25_in_order inv hl hf hfresh h x).2 (hx.imp id ?_)
  rintro ⟨r, a, h1, h2, h3, h4⟩
  have hh : (Val.str a) ≠ .nil ∧ ∃ r, MayComeFirst w p r ∧ r.tenant = .str a ∧ r.manage = .bool true := ⟨by simp, r, h1, h2, h3⟩
  have hca : c (.str a) = some hh.2.choose := by simp only [c]; rw [dif_pos hh]
  exact ⟨a, ⟨_, ho _ _ hca, hh.2.choose_spec.2.2⟩, h4⟩

/-- C116. The tenants that are included in some order. -/
theorem C116_sometimes (inv : w.Inv) (hl : LinksRegistered w) (hf : Mgr.HierFresh w) (hfresh : w.pcache.get p = none)
    (hret : ∀ o, ∃ x, w.implicitTenants o fuel site p = .ok x) (x : Str) :
    (∃ o I w', w.implicitTenants o fuel site p = .ok (I, w') ∧ x ∈ I) ↔ MayInclude w p x := by
  constructor
  · rintro ⟨o, I, w', h, hx⟩
    exact include_may inv hl hf hfresh h hx
  · intro hx
    obtain ⟨o, ho⟩ := exists_most (fuel := fuel) inv hl hf hfresh site
    obtain ⟨⟨I, w'⟩, h⟩ := hret o
    exact ⟨o, I, w', h, (ho h x).2 hx⟩

/-- C116. The tenants that are included in every order. -/
theorem C116_always (inv : w.Inv) (hl : LinksRegistered w) (hf : Mgr.HierFresh w) (hfresh : w.pcache.get p = none)
    (hret : ∀ o, ∃ x, w.implicitTenants o fuel site p = .ok x) (x : Str) :
    (∀ o I w', w.implicitTenants o fuel site p = .ok (I, w') → x ∈ I) ↔ MustInclude w p x := by
  constructor
  · intro hall
    obtain ⟨o, ho⟩ := exists_least (fuel := fuel) inv hl hf hfresh site
    obtain ⟨⟨I, w'⟩, h⟩ := hret o
    exact (ho h x).1 (hall o I w' h)
  · intro hx o I w' h
    exact must_include inv hl hf hfresh h hx

/-! ## Decisions -/

/-- What `Authorize` requires, with the tenants in `S` as the implicit ones. -/
def AllowedIn (w : Mgr) (p : Str) (r : Request) (S : Str → Prop) : Prop :=
  (∃ x, (p, x) ∈ w.principals) ∧ (∃ x, S x) ∧ Resources w r ∧ ∃ c, (c = r.tenant ∨ ∃ t, S t ∧ c = .str t) ∧ Decides w p c r

theorem AllowedIn.mono {r : Request} {S S' : Str → Prop} (h : AllowedIn w p r S) (hs : ∀ x, S x → S' x) : AllowedIn w p r S' :=
  let ⟨h1, ⟨x, hx⟩, h3, c, hc, hd⟩ := h
  ⟨h1, ⟨x, hs x hx⟩, h3, c, hc.imp id fun ⟨t, ht, e⟩ => ⟨t, hs t ht, e⟩, hd⟩

theorem allowedIn_iff {r : Request} {S : Str → Prop} {I : List Str} (h : ∀ x, x ∈ I ↔ S x) : AC.Allowed w p r I ↔ AllowedIn w p r S := by
  unfold AC.Allowed AllowedIn
  have hne : I ≠ [] ↔ ∃ x, x ∈ I := ⟨List.exists_mem_of_ne_nil I, fun ⟨x, hx⟩ => List.ne_nil_of_mem hx⟩
  simp only [← h, hne]

theorem authorize_allowed (inv : w.Inv) {o : Ord} {opts : List Opt} {b : Bool} {w' : Mgr} (hp : ∃ x, (p, x) ∈ w.principals)
    (h : w.authorize o fuel site p opts = .ok (b, w')) :
    ∃ I, w.implicitTenants o fuel (site ++ [.int 0]) p = .ok (I, w') ∧ (b = true ↔ AC.Allowed w p (requestOf opts) I) := by
  rcases Mgr.authorize_inv h with ⟨_, _, e⟩ | ⟨_, I, hI⟩
  · obtain ⟨x, hx⟩ := hp
    rw [(GoMap.mem_iff_get inv.regP).1 hx] at e; cases e
  · refine ⟨I, hI, ?_⟩
    rw [authorize_exact inv h, (Mgr.implicitTenants_inv inv hI).2.2.1]
    simp [AC.Allowed]

theorem not_allowed (h : ¬ ∃ x, (p, x) ∈ w.principals) {r : Request} {S : Str → Prop} : ¬ AllowedIn w p r S := fun ⟨h1, _⟩ => h h1

/-- C116. The requests that are allowed in some order. -/
theorem C116_may_allow (inv : w.Inv) (hl : LinksRegistered w) (hf : Mgr.HierFresh w) (hfresh : w.pcache.get p = none) (opts : List Opt)
    (hret : ∀ o, ∃ b w', w.authorize o fuel site p opts = .ok (b, w')) :
    (∃ o w', w.authorize o fuel site p opts = .ok (true, w')) ↔ AllowedIn w p (requestOf opts) (MayInclude w p) := by
  by_cases hp : ∃ x, (p, x) ∈ w.principals
  · constructor
    · rintro ⟨o, w', h⟩
      obtain ⟨I, hI, hb⟩ := authorize_allowed inv hp h
      exact ((allowedIn_iff fun x => Iff.rfl).1 (hb.1 rfl)).mono fun x hx => include_may inv hl hf hfresh hI hx
    · intro ha
      obtain ⟨o, ho⟩ := exists_most (fuel := fuel) inv hl hf hfresh (site ++ [.int 0])
      obtain ⟨b, w', h⟩ := hret o
      obtain ⟨I, hI, hb⟩ := authorize_allowed inv hp h
      have := hb.2 ((allowedIn_iff (ho hI)).2 ha)
      subst this
      exact ⟨o, w', h⟩
  · refine ⟨fun ⟨o, w', h⟩ => absurd ((authorize_exact inv h).1 rfl).1 hp, fun h => absurd h (not_allowed hp)⟩

/-- C116. The requests that are allowed in every order. -/
theorem C116_must_allow (inv : w.Inv) (hl : LinksRegistered w) (hf : Mgr.HierFresh w) (hfresh : w.pcache.get p = none) (opts : List Opt)
    (hret : ∀ o, ∃ b w', w.authorize o fuel site p opts = .ok (b, w')) :
    (∀ o b w', w.authorize o fuel site p opts = .ok (b, w') → b = true) ↔ AllowedIn w p (requestOf opts) (MustInclude w p) := by
  by_cases hp : ∃ x, (p, x) ∈ w.principals
  · constructor
    · intro hall
      obtain ⟨o, ho⟩ := exists_least (fuel := fuel) inv hl hf hfresh (site ++ [.int 0])
      obtain ⟨b, w', h⟩ := hret o
      obtain ⟨I, hI, hb⟩ := authorize_allowed inv hp h
      exact (allowedIn_iff (ho hI)).1 (hb.1 (hall o b w' h))
    · intro ha o b w' h
      obtain ⟨I, hI, hb⟩ := authorize_allowed inv hp h
      exact hb.2 ((allowedIn_iff fun x => Iff.rfl).2 (ha.mono fun x hx => must_include inv hl hf hfresh hI hx))
  · refine ⟨fun hall => ?_, fun h => absurd h (not_allowed hp)⟩
    obtain ⟨b, w', h⟩ := hret .fwd
    have := hall .fwd b w' h
    subst this
    exact absurd ((authorize_exact inv h).1 rfl).1 hp

/-- C116. The answer to a request is the same in all orders exactly if it is not allowed in some order or allowed in every order. -/
theorem C116_one_answer (inv : w.Inv) (hl : LinksRegistered w) (hf : Mgr.HierFresh w) (hfresh : w.pcache.get p = none) (opts : List Opt)
    (hret : ∀ o, ∃ b w', w.authorize o fuel site p opts = .ok (b, w')) :
    (∀ o o' b b' w1 w2, w.authorize o fuel site p opts = .ok (b, w1) → w.authorize o' fuel site p opts = .ok (b', w2) → b = b') ↔
      (AllowedIn w p (requestOf opts) (MayInclude w p) → AllowedIn w p (requestOf opts) (MustInclude w p)) := by
  rw [← C116_may_allow inv hl hf hfresh opts hret, ← C116_must_allow inv hl hf hfresh opts hret]
  constructor
  · rintro h ⟨o, w', h1⟩ o' b w'' h2
    exact (h o o' _ _ _ _ h1 h2).symm
  · intro h o o' b b' w1 w2 h1 h2
    by_cases hb : b = true
    · subst hb
      exact (h ⟨o, w1, h1⟩ o' b' w2 h2).symm
    · by_cases hb' : b' = true
      · subst hb'
        exact absurd (h ⟨o', w2, h2⟩ o b w1 h1) hb
      · rw [Bool.eq_false_iff.2 hb, Bool.eq_false_iff.2 hb']

/-- C104, partial: goroutines asking the same get the same answer if the answer does not depend on the order. This is weaker than the condition
of `C104_uniform_partial`. Missing: requests whose answer does depend on it (false, see `C104_counterexample`). -/
theorem C104_settled_partial {w : Mgr} (inv : w.Inv) {fuel : Nat} {calls : List (List AC.Call)} {is : List Nat} {c : AC.Conf}
    (h : (AC.Conf.start w calls).run fuel is = some c) {t t' : AC.Thread} (ht : t ∈ c.ts) (ht' : t' ∈ c.ts) {k k' : AC.Call} {b b' : Bool}
    (hk : (k, b) ∈ t.out) (hk' : (k', b') ∈ t'.out) (hp : k.p = k'.p) (ho : k.opts = k'.opts) (hl : LinksRegistered w) (hf : Mgr.HierFresh w)
    (hm : AllowedIn w k.p (requestOf k.opts) (MayInclude w k.p) → AllowedIn w k.p (requestOf k.opts) (MustInclude w k.p)) : b = b' := by
  cases hc : w.pcache.get k.p with
  | some I => exact AC.C104_cached_partial inv h ht ht' hk hk' hp ho hc
  | none =>
    have key : ∀ {t j b}, t ∈ c.ts → (j, b) ∈ t.out → j.p = k.p → j.opts = k.opts →
        (b = true ↔ AllowedIn w k.p (requestOf k.opts) (MayInclude w k.p)) := by
      intro t j b ht hj e1 e2
      rcases (AC.C103_answers inv h ht hj).2 with ⟨h1, rfl⟩ | ⟨d, _, _, J, w', hJ, hb⟩
      · rw [e1] at h1
        exact ⟨nofun, fun ⟨⟨x, hx⟩, _⟩ => absurd hx (h1 x)⟩
      · rw [e1] at hJ hb
        rw [e2] at hb
        rw [hb, allowedIn_iff fun x => Iff.rfl]
        exact ⟨fun ha => ha.mono fun x hx => include_may inv hl hf hc hJ hx,
          fun ha => (hm ha).mono fun x hx => must_include inv hl hf hc hJ hx⟩
    rw [Bool.eq_iff_iff, key ht hk rfl rfl, key ht' hk' hp.symm ho.symm]

/-- Rows that agree on `ManageDescendants` within each tenant settle every answer. -/
theorem uniform_settled (hu : Uniform w p) {x : Str} (h : MayInclude w p x) : MustInclude w p x := by
  refine h.imp id ?_
  rintro ⟨r, a, h1, h2, h3, h4⟩
  exact ⟨a, ⟨r, h1.1, h1.2.1, h2⟩, fun r' k1 k2 => hu a ⟨r, h1.1, h1.2.1, h2, h3⟩ r' k1.1 k1.2.1 k2, h4⟩

/-! ## Examples -/

/-- C116: in the state of `C25_counterexample` tenant b, below a, is included in some orders but not in all, and the request is allowed in some
orders but not in all; all calls return. -/
theorem C116_example : ∃ w, MOp.run {} exOrder = .ok w ∧ LinksRegistered w ∧ Mgr.HierFresh w ∧ w.pcache.get (str "p") = none ∧
    MayInclude w (str "p") (str "b") ∧ ¬ MustInclude w (str "p") (str "b") ∧
    (∃ n, ∀ m ≥ n, ∀ o site, ∃ x, w.implicitTenants o m site (str "p") = .ok x) ∧
    (∃ n, ∀ m ≥ n, ∀ o site, ∃ b w', w.authorize o m site (str "p") [.tenant (.str (str "a")), .namespace_ (.str (str "n"))] = .ok (b, w')) ∧
    AllowedIn w (str "p") (requestOf [.tenant (.str (str "a")), .namespace_ (.str (str "n"))]) (MayInclude w (str "p")) ∧
    ¬ AllowedIn w (str "p") (requestOf [.tenant (.str (str "a")), .namespace_ (.str (str "n"))]) (MustInclude w (str "p")) := by
  obtain ⟨w, h, h1, h2, h3, h4, h5, h6, h7, h8, h9, h10⟩ := Out.chk_ok (x := MOp.run {} exOrder)
    (P := fun w => (∀ t ∈ w.tobjs, ∀ e ∈ t.desc, w.tenants.get e.1 = some e.2) ∧ w.hierarchy = [] ∧ w.pcache.get (str "p") = none ∧
      (w.implicitTenants .fwd 9 [] (str "p")).map (·.1) = .ok [str "a"] ∧
      (w.implicitTenants .rev 9 [] (str "p")).map (·.1) = .ok [str "a", str "b"] ∧
      (∀ row ∈ survivors (rowKey dataKeys) w.log, ∃ t ∈ [str "a", str "b"], row.tenant = .str t) ∧
      w.tobjs.map (·.desc) = [[(str "b", 1)], []] ∧
      (w.authorize .fwd 9 [] (str "p") [.tenant (.str (str "a")), .namespace_ (.str (str "n"))]).map (·.1) = .ok false ∧
      (w.authorize .rev 9 [] (str "p") [.tenant (.str (str "a")), .namespace_ (.str (str "n"))]).map (·.1) = .ok true ∧
      (w.principals.get (str "p")).isSome) (by decide +kernel)
  have inv := MOp.reachable_inv h
  have hf : Mgr.HierFresh w := by intro a l hl; rw [h2] at hl; cases hl
  obtain ⟨⟨I, w1⟩, i1, i2⟩ := Out.map_eq_ok.1 h4
  obtain ⟨⟨J, w2⟩, j1, j2⟩ := Out.map_eq_ok.1 h5
  obtain ⟨⟨b, v1⟩, k1, k2⟩ := Out.map_eq_ok.1 h8
  obtain ⟨⟨b', v2⟩, l1, l2⟩ := Out.map_eq_ok.1 h9
  simp only at i2 j2 k2 l2
  subst i2 j2 k2 l2
  have hp : ∃ x, (str "p", x) ∈ w.principals := by
    obtain ⟨x, hx⟩ := Option.isSome_iff_exists.1 h10
    exact ⟨x, GoMap.get_some_mem hx⟩
  have hrows : ∀ row, Stored w row → row.principal = .str (str "p") → row.tenant ≠ .nil → ∃ t, row.tenant = .str t :=
    fun row hr _ _ => (h6 row hr).imp fun t ht => ht.2
  have hc : ∀ c d, TChild w.tobjs c d → d = 1 ∧ c ≠ 1 := by
    rintro c d ⟨t, k, ht, hk⟩
    have : (w.tobjs.map (·.desc))[c]? = some t.desc := by rw [List.getElem?_map, ht]; rfl
    rw [h7] at this
    match c, this with
    | 0, this =>
      rw [← Option.some.inj this, List.mem_singleton] at hk
      cases hk
      exact ⟨rfl, by decide⟩
    | 1, this => rw [← Option.some.inj this] at hk; cases hk
    | c + 2, this => cases this
  have hacc1 : Acc (fun d c => TChild w.tobjs c d) 1 := ⟨_, fun d hd => absurd rfl (hc 1 d hd).2⟩
  have hacc : ∀ c, Acc (fun d c => TChild w.tobjs c d) c := fun c => ⟨_, fun d hd => by rw [(hc c d hd).1]; exact hacc1⟩
  refine ⟨w, h, h1, hf, h3, include_may inv h1 hf h3 j1 (by simp), fun hm => ?_, Mgr.implicitTenants_total inv hrows fun a c _ _ => hacc c,
    C27_C28_returns inv ?_, ?_, fun hm => ?_⟩
  · have := must_include inv h1 hf h3 i1 hm
    revert this; decide
  · exact ⟨hrows, fun a c _ _ => hacc c, .inr ⟨_, rfl⟩, .inr ⟨_, rfl⟩, .inl rfl, fun ha => by simp [HasActivity, requestOf, Opt.apply] at ha⟩
  · obtain ⟨I, hI, hb⟩ := authorize_allowed inv hp l1
    exact ((allowedIn_iff fun x => Iff.rfl).1 (hb.1 rfl)).mono fun x hx => include_may inv h1 hf h3 hI hx
  · obtain ⟨I, hI, hb⟩ := authorize_allowed inv hp k1
    exact absurd (hb.2 ((allowedIn_iff fun x => Iff.rfl).2 (hm.mono fun x hx => must_include inv h1 hf h3 hI hx))) (by decide)

/-- Tenant a with child b; principal p has a row in a that names no role, and one with a role and `ManageDescendants`. -/
def exShadow : List MOp := [
  .newTenant (str "a"), .newTenant (str "b"), .addTenant 0, .addTenant 1, .tAddDescendant 0 [1], .addPrincipal (str "p") 0,
  .role (.newRole (str "r")), .addRole 0, .tAddPrincipalWithRole 0 (str "p") (str "r") true, .addData { tenant := .str (str "a"), principal := .str (str "p") }]

/-- C116: a row that names no role always comes first. So tenant b is never included, though p manages a. -/
theorem C116_shadowed : ∃ w, MOp.run {} exShadow = .ok w ∧ Manages w (str "p") (str "a") ∧ Under w (str "a") (str "b") ∧ ¬ MayInclude w (str "p") (str "b") := by
  obtain ⟨w, h, h1, h2, e1, e2, e3⟩ := Out.chk_ok (x := MOp.run {} exShadow)
    (P := fun w => (⟨.str (str "a"), .nil, .nil, .str (str "p"), .str (str "r"), .bool true⟩ : Data) ∈ survivors (rowKey dataKeys) w.log ∧
      (∀ r ∈ survivors (rowKey dataKeys) w.log, r.tenant = .str (str "a") ∧ (r.manage = .bool true →
        ∃ r' ∈ survivors (rowKey dataKeys) w.log, r'.principal = .str (str "p") ∧ r'.tenant = r.tenant ∧ rowKey dataKeys r' <+: rowKey dataKeys r ∧ r' ≠ r)) ∧
      w.tenants.get (str "a") = some 0 ∧ (w.tobjs[0]?).map (·.desc) = some [(str "b", 1)] ∧ (w.tobjs[1]?).map (·.id) = some (str "b"))
    (by decide +kernel)
  obtain ⟨t0, a0, a1⟩ := Option.map_eq_some_iff.1 e2
  obtain ⟨t1, b0, b1⟩ := Option.map_eq_some_iff.1 e3
  refine ⟨w, h, ⟨_, h1, rfl, rfl, rfl⟩, ⟨0, e1, 1, t1, .child ⟨t0, str "b", a0, by rw [a1]; simp⟩, b0, b1⟩, ?_⟩
  rintro (⟨r, hr, _, ht⟩ | ⟨r, a, ⟨hr, _, hm⟩, _, hman, _⟩)
  · rw [(h2 r hr).1] at ht
    revert ht; decide
  · obtain ⟨r', k1, k2, k3, k4, k5⟩ := (h2 r hr).2 hman
    exact k5 (hm r' k1 k2 k3 k4)

end Verif
