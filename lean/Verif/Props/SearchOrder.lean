import Verif.Props.Manager

/-!
# The order of search results (C115)

A search lists the matching rows in one of the orders in which the keys can be walked through: a row comes before the rows whose keys start with
its key, and the rows whose keys start alike are not interrupted by others. All such orders occur, and no others.
-/

namespace Verif
open Spec
variable {T : Type}

/-- A list in which elements come before those whose keys start with theirs, and elements whose keys start alike are next to each other. -/
def Arranged {α : Type} (key : α → List Val) (M : List α) : Prop :=
  (∀ x y, [x, y].Sublist M → ¬ key y <+: key x) ∧
  ∀ x y z, [x, y, z].Sublist M → ∀ q, q <+: key x → q <+: key z → q <+: key y

section Lists
variable {α β : Type}

theorem exists_of_perm_map {f : α → β} {l' m : List β} (h : l'.Perm m) : ∀ l : List α, m = l.map f → ∃ l2 : List α, l2.Perm l ∧ l' = l2.map f := by
  induction h with
  | nil => intro l hl; exact ⟨[], by rw [List.map_eq_nil_iff.1 hl.symm], rfl⟩
  | @cons x a b _ ih =>
    intro l hl
    cases l with
    | nil => cases hl
    | cons y l =>
      rw [List.map_cons, List.cons.injEq] at hl
      obtain ⟨l2, h1, h2⟩ := ih l hl.2
      exact ⟨y :: l2, h1.cons y, by rw [List.map_cons, hl.1, h2]⟩
  | swap x y a =>
    intro l hl
    match l, hl with
    | u :: v :: l, hl =>
      simp only [List.map_cons, List.cons.injEq] at hl
      exact ⟨v :: u :: l, .swap .., by simp only [List.map_cons]; rw [hl.1, hl.2.1, hl.2.2]⟩
  | trans _ _ ih1 ih2 =>
    intro l hl
    obtain ⟨l2, h1, h2⟩ := ih2 l hl
    obtain ⟨l3, h3, h4⟩ := ih1 l2 h2
    exact ⟨l3, h3.trans h1, h4⟩

theorem two_append {x y : α} {A B : List α} (h : [x, y].Sublist (A ++ B)) :
    [x, y].Sublist A ∨ (x ∈ A ∧ y ∈ B) ∨ [x, y].Sublist B := by
  obtain ⟨l1, l2, e, h1, h2⟩ := List.sublist_append_iff.1 h
  match l1, e with
  | [], e => subst e; exact .inr (.inr h2)
  | [_], e => cases e; exact .inr (.inl ⟨List.singleton_sublist.1 h1, List.singleton_sublist.1 h2⟩)
  | [_, _], e => cases e; exact .inl h1

theorem three_append {x y z : α} {A B : List α} (h : [x, y, z].Sublist (A ++ B)) :
    [x, y, z].Sublist A ∨ (x ∈ A ∧ z ∈ B) ∨ [x, y, z].Sublist B := by
  obtain ⟨l1, l2, e, h1, h2⟩ := List.sublist_append_iff.1 h
  match l1, e with
  | [], e => subst e; exact .inr (.inr h2)
  | [_], e => cases e; exact .inr (.inl ⟨h1.subset (by simp), h2.subset (by simp)⟩)
  | [_, _], e => cases e; exact .inr (.inl ⟨h1.subset (by simp), h2.subset (by simp)⟩)
  | [_, _, _], e => cases e; exact .inl h1

variable {key : α → List Val}

theorem Arranged.sublist {M N : List α} (h : Arranged key M) (hs : N.Sublist M) : Arranged key N :=
  ⟨fun x y hx => h.1 x y (hx.trans hs), fun x y z hx => h.2 x y z (hx.trans hs)⟩

theorem Arranged.nil : Arranged key ([] : List α) := ⟨fun _ _ h => (nomatch h), fun _ _ _ h => (nomatch h)⟩

/-- Lists whose keys begin with different values may follow each other. -/
theorem Arranged.append {A B : List α} (hA : Arranged key A) (hB : Arranged key B)
    (hd : ∀ x ∈ A, ∀ y ∈ B, ∀ q, q <+: key x → q <+: key y → q = []) (hn : ∀ y ∈ B, key y ≠ []) : Arranged key (A ++ B) := by
  constructor
  · intro x y h
    rcases two_append h with h | ⟨h1, h2⟩ | h
    · exact hA.1 x y h
    · intro hp; exact hn y h2 (hd x h1 y h2 _ hp (List.prefix_refl _))
    · exact hB.1 x y h
  · intro x y z h q hx hz
    rcases three_append h with h | ⟨h1, h2⟩ | h
    · exact hA.2 x y z h q hx hz
    · rw [hd x h1 z h2 q hx hz]; exact List.nil_prefix
    · exact hB.2 x y z h q hx hz

theorem no_common {k k' : Val} {a b : List Val} (hk : k ≠ k') {q : List Val} (h1 : q <+: k :: a) (h2 : q <+: k' :: b) : q = [] := by
  cases q with
  | nil => rfl
  | cons x q => exact absurd ((List.cons_prefix_cons.1 h1).1.symm.trans (List.cons_prefix_cons.1 h2).1) hk

/-- Blocks whose keys begin with different values, one after the other. -/
theorem Arranged.flatMap {κ : Type} {l : List κ} {hd : κ → Val} (hl : (l.map hd).Nodup) {B : κ → List α}
    (hB : ∀ k ∈ l, Arranged key (B k)) (hk : ∀ k ∈ l, ∀ x ∈ B k, ∃ ks, key x = hd k :: ks) : Arranged key (l.flatMap B) := by
  induction l with
  | nil => exact .nil
  | cons k l ih =>
    rw [List.map_cons, List.nodup_cons] at hl
    rw [List.flatMap_cons]
    refine (hB k (by simp)).append (ih hl.2 (fun k' h => hB k' (by simp [h])) fun k' h => hk k' (by simp [h])) ?_ ?_
    · intro x hx y hy q h1 h2
      obtain ⟨k', hk', hy⟩ := List.mem_flatMap.1 hy
      obtain ⟨_, e1⟩ := hk k (by simp) x hx
      obtain ⟨_, e2⟩ := hk k' (by simp [hk']) y hy
      rw [e1] at h1
      rw [e2] at h2
      exact no_common (fun e => hl.1 (by rw [e]; exact List.mem_map_of_mem hk')) h1 h2
    · intro y hy
      obtain ⟨k', hk', hy⟩ := List.mem_flatMap.1 hy
      obtain ⟨_, e2⟩ := hk k' (by simp [hk']) y hy
      rw [e2]; simp

theorem Arranged.map {γ : Type} {f : γ → α} {M : List γ} : Arranged key (M.map f) ↔ Arranged (fun x => key (f x)) M := by
  constructor
  · intro h
    exact ⟨fun x y hs => h.1 _ _ (hs.map f), fun x y z hs => h.2 _ _ _ (hs.map f)⟩
  · intro h
    constructor
    · intro x y hs
      obtain ⟨l, hl, e⟩ := List.sublist_map_iff.1 hs
      match l, e with
      | [a, b], e => cases e; exact h.1 a b hl
    · intro x y z hs
      obtain ⟨l, hl, e⟩ := List.sublist_map_iff.1 hs
      match l, e with
      | [a, b, c], e => cases e; exact h.2 a b c hl

theorem Arranged.congr {key' : α → List Val} {M : List α} (he : ∀ x ∈ M, key x = key' x) (h : Arranged key M) : Arranged key' M :=
  ⟨fun x y hs => by rw [← he x (hs.subset (by simp)), ← he y (hs.subset (by simp))]; exact h.1 x y hs,
   fun x y z hs => by
    rw [← he x (hs.subset (by simp)), ← he y (hs.subset (by simp)), ← he z (hs.subset (by simp))]; exact h.2 x y z hs⟩

theorem Arranged.push {k : Val} {M : List α} : Arranged (fun x => k :: key x) M ↔ Arranged key M := by
  constructor
  · intro h
    refine ⟨fun x y hs hp => h.1 x y hs (List.cons_prefix_cons.2 ⟨rfl, hp⟩), fun x y z hs q h1 h2 => ?_⟩
    exact (List.cons_prefix_cons.1 (h.2 x y z hs (k :: q) (List.cons_prefix_cons.2 ⟨rfl, h1⟩) (List.cons_prefix_cons.2 ⟨rfl, h2⟩))).2
  · intro h
    refine ⟨fun x y hs hp => h.1 x y hs (List.cons_prefix_cons.1 hp).2, fun x y z hs q h1 h2 => ?_⟩
    cases q with
    | nil => exact List.nil_prefix
    | cons a q =>
      obtain ⟨e, h1⟩ := List.cons_prefix_cons.1 h1
      exact List.cons_prefix_cons.2 ⟨e, h.2 x y z hs q h1 (List.cons_prefix_cons.1 h2).2⟩

/-- An element with the empty key first. -/
theorem Arranged.cons_empty {x : α} (hx : key x = []) {M : List α} (h : Arranged key M) (hn : ∀ y ∈ M, key y ≠ []) : Arranged key (x :: M) := by
  have h1 : Arranged key [x] := ⟨fun _ _ h => by simp at h, fun _ _ _ h => by have := h.length_le; simp at this⟩
  refine h1.append h ?_ hn
  intro y hy z _ q hq _
  rw [List.mem_singleton.1 hy, hx] at hq
  exact List.prefix_nil.1 hq

/-- A list none of whose other elements comes between two of one kind consists of that kind and the rest. -/
theorem split_kind {p : α → Bool} {M : List α} (h : ∀ y z, [y, z].Sublist M → p y = false → p z = false) :
    M = M.filter p ++ M.filter (fun x => !p x) := by
  induction M with
  | nil => rfl
  | cons x M ih =>
    have ih := ih fun y z hs => h y z (hs.trans (List.sublist_cons_self ..))
    cases hx : p x with
    | true =>
      rw [List.filter_cons_of_pos hx, List.filter_cons_of_neg (by simp [hx]), List.cons_append, ← ih]
    | false =>
      have hall : ∀ z ∈ M, p z = false := fun z hz => h x z (List.Sublist.cons_cons _ (List.singleton_sublist.2 hz)) hx
      rw [List.filter_eq_nil_iff.2 (by
        intro z hz
        rcases List.mem_cons.1 hz with rfl | hz
        · simp [hx]
        · simp [hall z hz]), List.nil_append, List.filter_eq_self.2]
      intro z hz
      rcases List.mem_cons.1 hz with rfl | hz
      · simp [hx]
      · simp [hall z hz]

/-- A list whose elements of each kind are next to each other is the blocks of its kinds in some order. -/
theorem blocks {κ : Type} [DecidableEq κ] {h : α → κ} {n : Nat} {K : List κ} (hlen : K.length = n) (hK : K.Nodup) {M : List α}
    (hM : ∀ x ∈ M, h x ∈ K) (hc : ∀ x y z, [x, y, z].Sublist M → h x = h z → h x = h y) :
    ∃ K' : List κ, K'.Perm K ∧ M = K'.flatMap fun k => M.filter fun x => h x = k := by
  induction n generalizing K M with
  | zero =>
    have hK0 := List.length_eq_zero_iff.1 hlen
    subst hK0
    refine ⟨[], .refl _, ?_⟩
    cases M with
    | nil => rfl
    | cons x M => cases hM x (by simp)
  | succ n ih =>
    cases M with
    | nil => exact ⟨K, .refl _, by simp⟩
    | cons x M =>
      have hx := hM x (by simp)
      have hs : x :: M = (x :: M).filter (fun y => h y = h x) ++ (x :: M).filter (fun y => !(h y = h x : Bool)) := by
        refine split_kind fun y z hyz hy => ?_
        simp only [decide_eq_false_iff_not] at hy ⊢
        intro hz
        have hyz : [y, z].Sublist M := by
          cases hyz with
          | cons _ h => exact h
          | cons_cons _ h => exact absurd rfl hy
        exact hy (hc x y z (hyz.cons_cons x) hz.symm).symm
      obtain ⟨K1, h1, h2⟩ := ih (K := K.erase (h x)) (M := (x :: M).filter (fun y => !(h y = h x : Bool)))
        (by rw [List.length_erase_of_mem hx, hlen]; rfl) (hK.erase _)
        (fun y hy => by
          obtain ⟨hy, hn⟩ := List.mem_filter.1 hy
          exact (List.mem_erase_of_ne (by simpa using hn)).2 (hM y hy))
        (fun a b c hs => hc a b c (hs.trans List.filter_sublist))
      refine ⟨h x :: K1, (h1.cons _).trans (List.perm_cons_erase hx).symm, ?_⟩
      rw [List.flatMap_cons]
      conv_lhs => rw [hs, h2]
      congr 1
      refine List.flatMap_congr fun k hk => ?_
      rw [List.filter_filter]
      refine List.filter_congr fun y _ => ?_
      have hne : k ≠ h x := fun e => by
        have := h1.mem_iff.1 hk
        rw [e] at this
        exact (List.Nodup.not_mem_erase hK) this
      by_cases hy : h y = k
      · simp [hy, hne]
      · simp [hy]

end Lists

/-! ## Walks -/

/-- The children of a node with their keys. -/
def Forest.toList : Forest T → List (Val × Node T)
  | .nil => []
  | .cons k n rest => (k, n) :: rest.toList

theorem Forest.keys_eq (f : Forest T) : f.keys = f.toList.map (·.1) := by
  fun_induction Forest.toList f <;> simp_all [Forest.keys]

theorem Forest.visits_eq (o : Ord) (cb : T → Bool) (stop : Bool) (path : List Val) (f : Forest T) :
    f.visits o cb stop path = f.toList.map fun x => x.2.dfs o cb stop (path ++ [x.1]) := by
  fun_induction Forest.toList f <;> simp_all [Forest.visits]

/-- The rows of a child, with the key of the child put before their paths. -/
def below (x : Val × List (List Val × T)) : List (List Val × T) := x.2.map fun e => (x.1 :: e.1, e.2)

theorem Forest.entries_eq (f : Forest T) : f.entries = f.toList.flatMap fun x => below (x.1, x.2.entries) := by
  fun_induction Forest.toList f <;> simp_all [Forest.entries, below]

theorem Forest.wf_mem {f : Forest T} (h : f.WF) {x : Val × Node T} (hx : x ∈ f.toList) : x.2.WF := by
  fun_induction Forest.toList f with
  | case1 => cases hx
  | case2 k n rest ih =>
    rw [Forest.WF] at h
    rcases List.mem_cons.1 hx with rfl | hx
    · exact h.2.1
    · exact ih h.2.2 hx

theorem runVisits_lists {α : Type} {f : α → List T → Bool × List T} {B : α → List T} {l : List α} (h : ∀ x ∈ l, ∀ r, f x r = (false, r ++ B x))
    (r : List T) : runVisits (l.map f) r = (false, r ++ l.flatMap B) := by
  induction l generalizing r with
  | nil => simp [runVisits]
  | cons x l ih =>
    rw [List.map_cons, runVisits, h x (by simp)]
    simp only
    rw [ih fun y hy => h y (by simp [hy])]
    simp

theorem filter_below (cb : T → Bool) (x : Val × List (List Val × T)) :
    (below x).filter (fun e => cb e.2) = below (x.1, x.2.filter fun e => cb e.2) := by
  unfold below
  rw [List.filter_map]
  rfl

theorem below_key {x : Val × List (List Val × T)} {e : List Val × T} (h : e ∈ below x) : ∃ ks, e.1 = x.1 :: ks := by
  obtain ⟨a, _, rfl⟩ := List.mem_map.1 h
  exact ⟨a.1, rfl⟩

/-- What the rows of a node at `d` contribute. -/
def own (cb : T → Bool) (d : Option T) : List (List Val × T) := ((d.filter cb).map fun x => ([], x)).toList

theorem entries_mk (cb : T → Bool) (d : Option T) (ch : Forest T) :
    (Node.mk d ch).entries.filter (fun e => cb e.2) = own cb d ++ ch.entries.filter fun e => cb e.2 := by
  rw [Node.entries, List.filter_append]
  cases d with
  | none => simp [own]
  | some x =>
    by_cases h : cb x <;> simp [own, h, Option.filter]

theorem dfs_mk (o : Ord) (cb : T → Bool) (path : List Val) (d : Option T) (ch : Forest T) (r : List T) :
    (Node.mk d ch).dfs o cb false path r = runVisits (o.ord path _ (ch.visits o cb false path)) (r ++ (own cb d).map (·.2)) := by
  rw [Node.dfs]
  cases d with
  | none => simp [own]
  | some x =>
    by_cases h : cb x <;> simp [own, h, Option.filter]

mutual
theorem Node.dfs_arranged (o : Ord) (cb : T → Bool) (path : List Val) (n : Node T) (hn : n.WF) :
    ∃ L : List (List Val × T), (∀ r, n.dfs o cb false path r = (false, r ++ L.map (·.2))) ∧
      L.Perm (n.entries.filter fun e => cb e.2) ∧ Arranged (·.1) L := by
  cases n with
  | mk d ch =>
    rw [Node.WF] at hn
    have ih := Forest.dfs_arranged o cb path ch hn.2
    have ih : ∃ L : Val × Node T → List (List Val × T), ∀ x ∈ ch.toList, (∀ r, x.2.dfs o cb false (path ++ [x.1]) r = (false, r ++ (L x).map (·.2))) ∧
        (L x).Perm (x.2.entries.filter fun e => cb e.2) ∧ Arranged (·.1) (L x) := by
      classical
      refine ⟨fun x => if h : x ∈ ch.toList then (ih x h).choose else [], fun x hx => ?_⟩
      simp only [hx, dif_pos]
      exact (ih x hx).choose_spec
    obtain ⟨L, hL⟩ := ih
    obtain ⟨l2, hp, he⟩ := exists_of_perm_map (o.perm path _ (ch.visits o cb false path)) ch.toList (Forest.visits_eq ..)
    have hL2 : ∀ x ∈ l2, _ := fun x hx => hL x (hp.mem_iff.1 hx)
    refine ⟨own cb d ++ l2.flatMap fun x => below (x.1, L x), fun r => ?_, ?_, ?_⟩
    · rw [dfs_mk, he, runVisits_lists fun x hx => (hL2 x hx).1, List.map_append, List.map_flatMap, List.append_assoc]
      simp only [below, List.map_map, Function.comp_def]
    · rw [entries_mk, Forest.entries_eq, List.filter_flatMap]
      refine List.Perm.append_left _ ?_
      refine (List.Perm.flatMap_left _ fun x hx => ?_).trans (hp.flatMap_right _)
      rw [filter_below]
      exact ((hL2 x hx).2.1).map _
    · have h1 : Arranged (·.1) (l2.flatMap fun x => below (x.1, L x)) := by
        refine Arranged.flatMap (hd := (·.1)) ?_ (fun x hx => ?_) fun x hx e he => below_key he
        · have := hn.1
          rw [Forest.keys_eq] at this
          exact (hp.map _).nodup_iff.2 this
        · unfold below
          rw [Arranged.map]
          exact Arranged.push.2 (hL2 x hx).2.2
      have h2 : ∀ e ∈ l2.flatMap fun x => below (x.1, L x), e.1 ≠ [] := by
        intro e he
        obtain ⟨x, _, he⟩ := List.mem_flatMap.1 he
        obtain ⟨ks, e⟩ := below_key he
        rw [e]; simp
      unfold own
      cases d.filter cb with
      | none => exact h1
      | some x => exact Arranged.cons_empty rfl h1 h2
theorem Forest.dfs_arranged (o : Ord) (cb : T → Bool) (path : List Val) (f : Forest T) (hf : f.WF) :
    ∀ x ∈ f.toList, ∃ L : List (List Val × T), (∀ r, x.2.dfs o cb false (path ++ [x.1]) r = (false, r ++ L.map (·.2))) ∧
      L.Perm (x.2.entries.filter fun e => cb e.2) ∧ Arranged (·.1) L := by
  cases f with
  | nil => intro x hx; cases hx
  | cons k n rest =>
    rw [Forest.WF] at hf
    intro x hx
    rw [Forest.toList] at hx
    by_cases h : x = (k, n)
    · subst h; exact Node.dfs_arranged o cb (path ++ [k]) n hf.2.1
    · exact Forest.dfs_arranged o cb path rest hf.2.2 x ((List.mem_cons.1 hx).resolve_left h)
end

/-- The elements of `l` in the order given by a list of indices. -/
def permute {α : Type} (σ : List Nat) (l : List α) : List α := if σ.Perm (List.range l.length) then σ.filterMap (l[·]?) else l

theorem filterMap_range {α : Type} (l : List α) : (List.range l.length).filterMap (l[·]?) = l := by
  induction l with
  | nil => rfl
  | cons x l ih =>
    rw [List.length_cons, List.range_succ_eq_map, List.filterMap_cons, List.filterMap_map]
    simp only [List.getElem?_cons_zero, Function.comp_def, List.getElem?_cons_succ]
    rw [ih]

theorem permute_perm {α : Type} (σ : List Nat) (l : List α) : (permute σ l).Perm l := by
  unfold permute
  split
  · rename_i h
    have := h.filterMap (l[·]?)
    rwa [filterMap_range] at this
  · exact .refl _

/-- The oracle that orders the loop with stamp `s` by `σ s`. -/
def Ord.byIndex (σ : List Val → List Nat) : Ord := ⟨fun s _ l => permute (σ s) l, fun s _ l => permute_perm (σ s) l⟩

/-- Every order of a list is given by indices, which order the images of the elements alike. -/
theorem exists_indices {α : Type} {l l' : List α} (h : l'.Perm l) : ∃ σ : List Nat, ∀ {β : Type} (f : α → β), permute σ (l.map f) = l'.map f := by
  have h1 : l'.map some = l'.map some := rfl
  have hr : l.map some = (List.range l.length).map (l[·]?) := by
    apply List.ext_getElem?
    intro i
    rw [List.getElem?_map, List.getElem?_map]
    by_cases hi : i < l.length
    · rw [List.getElem?_range hi]; simp [hi]
    · rw [List.getElem?_eq_none (by omega), List.getElem?_eq_none (by simp; omega)]; rfl
  obtain ⟨σ, h2, h3⟩ := exists_of_perm_map (f := (l[·]?)) (h.map some) (List.range l.length) hr
  refine ⟨σ, fun f => ?_⟩
  unfold permute
  rw [List.length_map, if_pos h2]
  have : σ.filterMap ((l.map f)[·]?) = ((σ.map (l[·]?)).filterMap id).map f := by
    rw [List.filterMap_map, List.map_filterMap]
    refine List.filterMap_congr fun i _ => ?_
    simp
  rw [this, ← h3, List.filterMap_map]
  simp

mutual
theorem Node.dfs_any (cb : T → Bool) (path : List Val) (n : Node T) (hn : n.WF) (M : List (List Val × T))
    (hp : M.Perm (n.entries.filter fun e => cb e.2)) (ha : Arranged (·.1) M) :
    ∃ σ : List Val → List Nat, ∀ o : Ord, (∀ s, path <+: s → ∀ α (l : List α), o.ord s α l = permute (σ s) l) →
      ∀ r, n.dfs o cb false path r = (false, r ++ M.map (·.2)) := by
  cases n with
  | mk d ch =>
    rw [Node.WF] at hn
    rw [entries_mk] at hp
    have hnd : (ch.toList.map (·.1)).Nodup := by rw [← Forest.keys_eq]; exact hn.1
    -- the row of the node itself comes first
    obtain ⟨N, hM, hN⟩ : ∃ N, M = own cb d ++ N ∧ N.Perm (ch.entries.filter fun e => cb e.2) := by
      unfold own at hp ⊢
      cases hd : d.filter cb with
      | none => rw [hd] at hp; exact ⟨M, by simp, by simpa using hp⟩
      | some x =>
        rw [hd] at hp
        have hx : ([], x) ∈ M := hp.mem_iff.2 (by simp)
        cases M with
        | nil => cases hx
        | cons y M =>
          have : y = ([], x) := by
            rcases List.mem_cons.1 hx with h | h
            · exact h.symm
            · exact absurd List.nil_prefix (ha.1 y ([], x) (List.Sublist.cons_cons _ (List.singleton_sublist.2 h)))
          subst this
          exact ⟨M, by simp, by simpa using hp⟩
    have haN : Arranged (·.1) N := ha.sublist (by rw [hM]; exact List.sublist_append_right ..)
    rw [Forest.entries_eq, List.filter_flatMap] at hN
    have hkey : ∀ e ∈ N, ∃ x ∈ ch.toList, ∃ ks, e.1 = x.1 :: ks := by
      intro e he
      obtain ⟨x, hx, he⟩ := List.mem_flatMap.1 (hN.mem_iff.1 he)
      rw [filter_below] at he
      exact ⟨x, hx, below_key he⟩
    -- the blocks of the children
    obtain ⟨K, hK1, hK2⟩ := blocks (h := fun e : List Val × T => e.1.headD .nil) rfl hnd (M := N)
      (fun e he => by
        obtain ⟨x, hx, ks, h⟩ := hkey e he
        simp only [h]
        exact List.mem_map_of_mem hx)
      (fun x y z hs h => by
        obtain ⟨_, _, kx, hx⟩ := hkey x (hs.subset (by simp))
        obtain ⟨_, _, kz, hz⟩ := hkey z (hs.subset (by simp))
        obtain ⟨_, _, ky, hy⟩ := hkey y (hs.subset (by simp))
        simp only [hx, hy, hz, List.headD_cons] at h ⊢
        have := haN.2 x y z hs [_] (by simp only [hx]; exact ⟨kx, rfl⟩) (by simp only [hz]; exact ⟨kz, by rw [h]; rfl⟩)
        simp only [hy] at this
        exact (List.cons_prefix_cons.1 this).1)
    obtain ⟨l2, hl2, e2⟩ := exists_of_perm_map hK1 ch.toList rfl
    let B : Val → List (List Val × T) := fun k => (N.filter fun e => e.1.headD .nil = k).map fun e => (e.1.tail, e.2)
    have hB : ∀ x ∈ ch.toList, below (x.1, B x.1) = N.filter fun e => e.1.headD .nil = x.1 := by
      intro x hx
      simp only [B, below, List.map_map]
      conv_rhs => rw [← List.map_id (N.filter _)]
      refine List.map_congr_left fun e he => ?_
      obtain ⟨he, hk⟩ := List.mem_filter.1 he
      obtain ⟨_, _, ks, h⟩ := hkey e he
      simp only [decide_eq_true_eq] at hk
      rw [h] at hk
      simp only [List.headD_cons] at hk
      obtain ⟨e1, e2⟩ := e
      simp only at h
      simp [h, hk]
    have hfil : ∀ (l : List (Val × Node T)), (l.map (·.1)).Nodup → ∀ x ∈ l,
        (l.flatMap fun y => (below (y.1, y.2.entries)).filter fun e => cb e.2).filter (fun e => e.1.headD .nil = x.1) =
          (below (x.1, x.2.entries)).filter fun e => cb e.2 := by
      intro l hl x hx
      have heq : ∀ y : Val × Node T, y.1 = x.1 → ((below (y.1, y.2.entries)).filter fun e => cb e.2).filter (fun e => e.1.headD .nil = x.1) =
          (below (y.1, y.2.entries)).filter fun e => cb e.2 := by
        intro y hy
        rw [List.filter_eq_self]
        intro e he
        obtain ⟨ks, h⟩ := below_key (List.mem_filter.1 he).1
        simp [h, hy]
      have hne : ∀ y : Val × Node T, y.1 ≠ x.1 → ((below (y.1, y.2.entries)).filter fun e => cb e.2).filter (fun e => e.1.headD .nil = x.1) = [] := by
        intro y hy
        rw [List.filter_eq_nil_iff]
        intro e he
        obtain ⟨ks, h⟩ := below_key (List.mem_filter.1 he).1
        simp [h, hy]
      induction l with
      | nil => cases hx
      | cons y l ih =>
        rw [List.map_cons, List.nodup_cons] at hl
        rw [List.flatMap_cons, List.filter_append]
        rcases List.mem_cons.1 hx with rfl | hx'
        · rw [heq x rfl, List.filter_flatMap, List.flatMap_eq_nil_iff.2, List.append_nil]
          intro z hz
          exact hne z fun e => hl.1 (e ▸ List.mem_map_of_mem hz)
        · rw [hne y fun e => hl.1 (e ▸ List.mem_map_of_mem hx'), List.nil_append]
          exact ih hl.2 hx'
    obtain ⟨σ, hσ⟩ := Forest.dfs_any cb path ch hn.2 hnd B (fun x hx => by
      constructor
      · have h1 := hN.filter fun e => e.1.headD .nil = x.1
        rw [hfil _ hnd x hx, filter_below, ← hB x hx] at h1
        have h2 := h1.map fun e => (e.1.tail, e.2)
        simp only [below, List.map_map, Function.comp_def, List.tail_cons] at h2
        simpa using h2
      · have h1 : Arranged (·.1) (below (x.1, B x.1)) := by rw [hB x hx]; exact haN.sublist List.filter_sublist
        unfold below at h1
        rw [Arranged.map] at h1
        exact Arranged.push.1 h1)
    obtain ⟨τ, hτ⟩ := exists_indices hl2
    classical
    refine ⟨fun s => if s = path then τ else σ s, fun o ho r => ?_⟩
    have ho1 : ∀ α (l : List α), o.ord path α l = permute τ l := fun α l => by rw [ho path (List.prefix_refl _)]; simp
    have ho2 : ∀ x : Val × Node T, ∀ s, path ++ [x.1] <+: s → ∀ α (l : List α), o.ord s α l = permute (σ s) l := by
      intro x s hs α l
      rw [ho s ((List.prefix_append _ _).trans hs)]
      beta_reduce
      rw [if_neg]
      rintro rfl
      have := hs.length_le
      simp only [List.length_append, List.length_singleton] at this
      omega
    rw [dfs_mk, ho1, Forest.visits_eq, hτ, runVisits_lists (B := fun x => (B x.1).map (·.2))
      fun x hx => hσ x (hl2.mem_iff.1 hx) o (ho2 x), hM, List.map_append, List.append_assoc]
    congr 3
    conv_rhs => rw [hK2, e2, List.flatMap_map, List.map_flatMap]
    refine List.flatMap_congr fun x hx => ?_
    rw [← hB x (hl2.mem_iff.1 hx)]
    simp [below]
theorem Forest.dfs_any (cb : T → Bool) (path : List Val) (f : Forest T) (hf : f.WF) (hn : (f.toList.map (·.1)).Nodup) (B : Val → List (List Val × T))
    (hB : ∀ x ∈ f.toList, (B x.1).Perm (x.2.entries.filter fun e => cb e.2) ∧ Arranged (·.1) (B x.1)) :
    ∃ σ : List Val → List Nat, ∀ x ∈ f.toList, ∀ o : Ord, (∀ s, path ++ [x.1] <+: s → ∀ α (l : List α), o.ord s α l = permute (σ s) l) →
      ∀ r, x.2.dfs o cb false (path ++ [x.1]) r = (false, r ++ (B x.1).map (·.2)) := by
  cases f with
  | nil => exact ⟨fun _ => [], fun x hx => by cases hx⟩
  | cons k n rest =>
    rw [Forest.WF] at hf
    rw [Forest.toList] at hB
    rw [Forest.toList, List.map_cons, List.nodup_cons] at hn
    obtain ⟨h1, h2⟩ := hB (k, n) (by simp)
    obtain ⟨σ1, hσ1⟩ := Node.dfs_any cb (path ++ [k]) n hf.2.1 (B k) h1 h2
    obtain ⟨σ2, hσ2⟩ := Forest.dfs_any cb path rest hf.2.2 hn.2 B fun x hx => hB x (by simp [hx])
    classical
    refine ⟨fun s => if path ++ [k] <+: s then σ1 s else σ2 s, fun x hx o ho => ?_⟩
    rw [Forest.toList] at hx
    rcases List.mem_cons.1 hx with rfl | hx
    · exact hσ1 o fun s hs α l => by rw [ho s hs]; beta_reduce; rw [if_pos hs]
    · refine hσ2 x hx o fun s hs α l => ?_
      rw [ho s hs]
      beta_reduce
      rw [if_neg]
      intro hk
      have := List.prefix_of_prefix_length_le hs hk (by simp)
      have := List.prefix_append_right_inj path |>.1 this
      exact hn.1 (List.mem_map.2 ⟨x, hx, (List.cons_prefix_cons.1 this).1⟩)
end

/-! ## Searches of the trie -/

theorem TrieInv.entry_key {keys : T → Option (List Val)} {L : List T} {t : Trie T} (h : TrieInv keys L t) :
    ∀ e ∈ t.root.entries, rowKey keys e.2 = e.1 := by
  intro e he
  have := (Node.mem_entries t.root h.wf e.1 e.2).1 he
  rw [h.find] at this
  have := List.mem_of_getLast? this
  simpa using (List.mem_filter.1 this).2

theorem TrieInv.search_order {keys : T → Option (List Val)} {L : List T} {t : Trie T} (h : TrieInv keys L t) (site : List Val) (cb : T → Bool)
    (M : List T) : (∃ o, t.search o site cb false = M) ↔ M.Perm ((survivors (rowKey keys) L).filter cb) ∧ Arranged (rowKey keys) M := by
  constructor
  · rintro ⟨o, rfl⟩
    refine ⟨h.search o site cb, ?_⟩
    obtain ⟨L', h1, h2, h3⟩ := Node.dfs_arranged o cb (site ++ [.nil]) t.root h.wf
    rw [Trie.search, h1, List.nil_append, Arranged.map]
    refine h3.congr fun e he => (h.entry_key e ?_).symm
    exact (List.mem_filter.1 (h2.mem_iff.1 he)).1
  · rintro ⟨hp, ha⟩
    have hp2 : (M.map fun x => (rowKey keys x, x)).Perm (t.root.entries.filter fun e => cb e.2) := by
      have h1 := (hp.trans (h.entries_perm.filter cb).symm).map fun x => (rowKey keys x, x)
      refine h1.trans (List.Perm.of_eq ?_)
      rw [List.filter_map, List.map_map]
      conv_rhs => rw [← List.map_id (t.root.entries.filter _)]
      refine List.map_congr_left fun e he => ?_
      have := h.entry_key e (List.mem_filter.1 he).1
      simp [this]
    obtain ⟨σ, hσ⟩ := Node.dfs_any cb (site ++ [.nil]) t.root h.wf _ hp2 (Arranged.map.2 ha)
    refine ⟨Ord.byIndex σ, ?_⟩
    rw [Trie.search, hσ _ fun s _ α l => rfl]
    simp [Function.comp_def]

/-- C115. The lists that a search can return are exactly the arrangements of the matching rows. -/
theorem C115_search_order (m : T → T → Bool) (keys : T → Option (List Val)) (hist : List (Option T)) (t : Trie T)
    (h : insertAll (Trie.new m keys) hist = .ok t) (site : List Val) (filter : T) (cb : T → T → Bool) (M : List T) :
    (∃ o, t.searchFunc o site filter cb = M) ↔
      M.Perm ((survivors (rowKey keys) (hist.filterMap id)).filter (cb filter)) ∧ Arranged (rowKey keys) M := by
  have inv := (TrieInv.new m keys).insertAll h
  rw [List.nil_append] at inv
  exact inv.search_order site (cb filter) M

/-! ## The first result -/

theorem runVisits_true {fs : List (List T → Bool × List T)} {r res : List T} (h : runVisits fs r = (true, res))
    (hs : ∀ f ∈ fs, (f r).1 = false → (f r).2 = r) : ∃ f ∈ fs, f r = (true, res) := by
  induction fs with
  | nil => cases h
  | cons f fs ih =>
    rw [runVisits] at h
    have h0 := hs f (by simp)
    cases hf : f r with
    | mk b r' =>
      rw [hf] at h h0
      cases b with
      | true => simp only at h; exact ⟨f, by simp, by rw [hf, h]⟩
      | false =>
        simp only at h h0
        rw [h0 trivial] at h
        obtain ⟨g, hg, e⟩ := ih h fun g hg => hs g (by simp [hg])
        exact ⟨g, by simp [hg], e⟩

/-- Among the matching rows, one whose key does not start with the key of another. -/
def Foremost (cb : T → Bool) (n : Node T) (p : List Val) (x : T) : Prop :=
  (p, x) ∈ n.entries ∧ cb x = true ∧ ∀ e ∈ n.entries, cb e.2 = true → e.1 <+: p → e.1 = p

theorem Foremost.child {cb : T → Bool} {d : Option T} {ch : Forest T} (hn : (ch.toList.map (·.1)).Nodup) {k : Val} {ks : List Val} {x : T} :
    Foremost cb (.mk d ch) (k :: ks) x ↔ (∀ y, d = some y → cb y = false) ∧ ∃ c, (k, c) ∈ ch.toList ∧ Foremost cb c ks x := by
  have hmem : ∀ e : List Val × T, e ∈ (Node.mk d ch).entries ↔ (∃ y, d = some y ∧ e = ([], y)) ∨
      ∃ z ∈ ch.toList, ∃ a ∈ z.2.entries, e = (z.1 :: a.1, a.2) := by
    intro e
    rw [Node.entries, List.mem_append, Forest.entries_eq, List.mem_flatMap]
    refine or_congr ?_ ?_
    · cases d <;> simp
    · simp only [below, List.mem_map]
      exact exists_congr fun z => and_congr_right fun _ => exists_congr fun a => and_congr_right fun _ => eq_comm
  constructor
  · rintro ⟨h1, h2, h3⟩
    refine ⟨fun y hy => ?_, ?_⟩
    · cases hc : cb y with
      | false => rfl
      | true => exact absurd (h3 ([], y) ((hmem _).2 (.inl ⟨y, hy, rfl⟩)) hc List.nil_prefix) (by simp)
    · rcases (hmem _).1 h1 with ⟨y, _, e⟩ | ⟨z, hz, a, ha, e⟩
      · cases e
      · cases e
        refine ⟨z.2, hz, ha, h2, fun e he hc hp => ?_⟩
        have := h3 (z.1 :: e.1, e.2) ((hmem _).2 (.inr ⟨z, hz, e, he, rfl⟩)) hc (List.cons_prefix_cons.2 ⟨rfl, hp⟩)
        exact (List.cons.inj this).2
  · rintro ⟨h1, c, hc, h2, h3, h4⟩
    refine ⟨(hmem _).2 (.inr ⟨_, hc, _, h2, rfl⟩), h3, fun e he hcb hp => ?_⟩
    rcases (hmem _).1 he with ⟨y, hy, rfl⟩ | ⟨z, hz, a, ha, rfl⟩
    · rw [h1 y hy] at hcb; cases hcb
    · obtain ⟨e1, hp2⟩ := List.cons_prefix_cons.1 hp
      have hzc : z = (k, c) := by
        obtain ⟨i, hi, gi⟩ := List.getElem_of_mem hz
        obtain ⟨j, hj, gj⟩ := List.getElem_of_mem hc
        have : i = j := (List.getElem_inj (xs := ch.toList.map (·.1)) (h₀ := by simpa using hi) (h₁ := by simpa using hj) hn).1
          (by simp [gi, gj, e1])
        subst this
        rw [← gi, gj]
      subst hzc
      rw [h4 a ha hcb hp2]

theorem dfs_stop_mk (o : Ord) (cb : T → Bool) (path : List Val) (d : Option T) (ch : Forest T) (r : List T) :
    (Node.mk d ch).dfs o cb true path r = match d.filter cb with
      | some x => (true, r ++ [x])
      | none => runVisits (o.ord path _ (ch.visits o cb true path)) r := by
  rw [Node.dfs]
  cases d with
  | none => rfl
  | some x => by_cases h : cb x <;> simp [h, Option.filter]

mutual
theorem Node.first_foremost (o : Ord) (cb : T → Bool) (path : List Val) (n : Node T) (hn : n.WF) (r : List T) {x : T}
    (h : n.dfs o cb true path r = (true, r ++ [x])) : ∃ p, Foremost cb n p x := by
  cases n with
  | mk d ch =>
    rw [Node.WF] at hn
    have hnd : (ch.toList.map (·.1)).Nodup := by rw [← Forest.keys_eq]; exact hn.1
    rw [dfs_stop_mk] at h
    cases hd : d.filter cb with
    | some y =>
      rw [hd] at h
      simp only [Prod.mk.injEq, List.append_cancel_left_eq, List.cons.injEq, and_true, true_and] at h
      subst h
      obtain ⟨h1, h2⟩ := Option.filter_eq_some_iff.1 hd
      subst h1
      exact ⟨[], by rw [Node.entries]; simp, h2, fun e _ _ hp => List.prefix_nil.1 hp⟩
    | none =>
      rw [hd] at h
      simp only at h
      obtain ⟨f, hf, e⟩ := runVisits_true h fun f hf hb => by
        rw [Ord.mem_ord, Forest.visits_eq] at hf
        obtain ⟨z, hz, rfl⟩ := List.mem_map.1 hf
        rcases Node.dfs_stop o cb (path ++ [z.1]) z.2 r with ⟨e, _⟩ | ⟨_, _, _, e⟩
        · rw [e]
        · rw [e] at hb; cases hb
      rw [Ord.mem_ord, Forest.visits_eq] at hf
      obtain ⟨z, hz, rfl⟩ := List.mem_map.1 hf
      obtain ⟨p, hp⟩ := Forest.first_foremost o cb path ch hn.2 r z hz e
      refine ⟨z.1 :: p, (Foremost.child hnd).2 ⟨fun y hy => ?_, z.2, hz, hp⟩⟩
      subst hy
      cases hc : cb y with
      | false => rfl
      | true => rw [Option.filter_some, if_pos hc] at hd; cases hd
theorem Forest.first_foremost (o : Ord) (cb : T → Bool) (path : List Val) (f : Forest T) (hf : f.WF) (r : List T) {x : T} :
    ∀ z ∈ f.toList, z.2.dfs o cb true (path ++ [z.1]) r = (true, r ++ [x]) → ∃ p, Foremost cb z.2 p x := by
  cases f with
  | nil => intro z hz; cases hz
  | cons k n rest =>
    rw [Forest.WF] at hf
    intro z hz
    rw [Forest.toList] at hz
    by_cases h : z = (k, n)
    · subst h; exact Node.first_foremost o cb (path ++ [k]) n hf.2.1 r
    · exact Forest.first_foremost o cb path rest hf.2.2 r z ((List.mem_cons.1 hz).resolve_left h)
end

theorem Node.first_any (cb : T → Bool) (p : List Val) : ∀ (path : List Val) (n : Node T), n.WF → ∀ x, Foremost cb n p x →
    ∃ σ : List Val → List Nat, ∀ o : Ord, (∀ s, path <+: s → ∀ α (l : List α), o.ord s α l = permute (σ s) l) →
      ∀ r, n.dfs o cb true path r = (true, r ++ [x]) := by
  induction p with
  | nil =>
    rintro path ⟨d, ch⟩ hn x ⟨h1, h2, h3⟩
    refine ⟨fun _ => [], fun o _ r => ?_⟩
    have : d = some x := by
      have := (Node.mem_entries _ hn [] x).1 h1
      rwa [Node.find] at this
    rw [dfs_stop_mk, this, Option.filter_some, if_pos h2]
  | cons k ks ih =>
    rintro path ⟨d, ch⟩ hn x hx
    rw [Node.WF] at hn
    have hnd : (ch.toList.map (·.1)).Nodup := by rw [← Forest.keys_eq]; exact hn.1
    obtain ⟨h1, c, hc, h2⟩ := (Foremost.child hnd).1 hx
    obtain ⟨σ, hσ⟩ := ih (path ++ [k]) c (Forest.wf_mem hn.2 hc) x h2
    obtain ⟨A, B, hAB⟩ := List.append_of_mem hc
    obtain ⟨τ, hτ⟩ := exists_indices (l := ch.toList) (l' := (k, c) :: (A ++ B)) (by rw [hAB]; exact List.perm_middle.symm)
    classical
    refine ⟨fun s => if s = path then τ else σ s, fun o ho r => ?_⟩
    have hd : d.filter cb = none := by
      cases d with
      | none => rfl
      | some y => rw [Option.filter_some, if_neg (by rw [h1 y rfl]; simp)]
    rw [dfs_stop_mk, hd]
    simp only
    rw [ho path (List.prefix_refl _)]
    beta_reduce
    rw [if_pos rfl, Forest.visits_eq, hτ, List.map_cons, runVisits, hσ o fun s hs α l => ?_]
    rw [ho s ((List.prefix_append _ _).trans hs)]
    beta_reduce
    rw [if_neg]
    rintro rfl
    have := hs.length_le
    simp only [List.length_append, List.length_singleton] at this
    omega

/-- C115. The rows that `First` can return are exactly the matching ones whose key does not start with the key of another matching row. -/
theorem C115_first (m : T → T → Bool) (keys : T → Option (List Val)) (hist : List (Option T)) (t : Trie T)
    (h : insertAll (Trie.new m keys) hist = .ok t) (site : List Val) (filter : T) (cb : T → T → Bool) (x : T) :
    (∃ o, t.firstFunc o site filter cb = some x) ↔ x ∈ survivors (rowKey keys) (hist.filterMap id) ∧ cb filter x = true ∧
      ∀ y ∈ survivors (rowKey keys) (hist.filterMap id), cb filter y = true → rowKey keys y <+: rowKey keys x → y = x := by
  have inv := (TrieInv.new m keys).insertAll h
  rw [List.nil_append] at inv
  have hmem : ∀ y, y ∈ survivors (rowKey keys) (hist.filterMap id) ↔ (rowKey keys y, y) ∈ t.root.entries := by
    intro y
    rw [← inv.entries_perm.mem_iff, List.mem_map]
    constructor
    · rintro ⟨e, he, rfl⟩; rw [inv.entry_key e he]; exact he
    · intro he; exact ⟨_, he, rfl⟩
  have hinj : ∀ {y z : T}, (rowKey keys y, y) ∈ t.root.entries → (rowKey keys z, z) ∈ t.root.entries → rowKey keys y = rowKey keys z → y = z := by
    intro y z hy hz e
    have h1 := (Node.mem_entries _ inv.wf _ _).1 hy
    rw [e, (Node.mem_entries _ inv.wf _ _).1 hz] at h1
    cases h1; rfl
  have hfore : (∃ p, Foremost (cb filter) t.root p x) ↔ x ∈ survivors (rowKey keys) (hist.filterMap id) ∧ cb filter x = true ∧
      ∀ y ∈ survivors (rowKey keys) (hist.filterMap id), cb filter y = true → rowKey keys y <+: rowKey keys x → y = x := by
    constructor
    · rintro ⟨p, h1, h2, h3⟩
      have hp := inv.entry_key _ h1
      simp only at hp
      subst hp
      refine ⟨(hmem x).2 h1, h2, fun y hy hc hpre => hinj ((hmem y).1 hy) h1 (h3 _ ((hmem y).1 hy) hc hpre)⟩
    · rintro ⟨h1, h2, h3⟩
      refine ⟨rowKey keys x, (hmem x).1 h1, h2, fun e he hc hp => ?_⟩
      have hk := inv.entry_key e he
      rw [← hk] at hp ⊢
      rw [h3 e.2 ((hmem _).2 (by rw [hk]; exact he)) hc hp]
  rw [← hfore]
  have hfirst : ∀ o, t.firstFunc o site filter cb = some x ↔ t.root.dfs o (cb filter) true (site ++ [.nil]) [] = (true, [] ++ [x]) := by
    intro o
    unfold Trie.firstFunc Trie.search
    rcases Node.dfs_stop o (cb filter) (site ++ [.nil]) t.root [] with ⟨e, _⟩ | ⟨y, _, _, e⟩
    · rw [e]; simp
    · rw [e]; simp
  constructor
  · rintro ⟨o, ho⟩
    exact Node.first_foremost o _ _ _ inv.wf [] ((hfirst o).1 ho)
  · rintro ⟨p, hp⟩
    obtain ⟨σ, hσ⟩ := Node.first_any (cb filter) p (site ++ [.nil]) t.root inv.wf x hp
    exact ⟨Ord.byIndex σ, (hfirst _).2 (hσ _ (fun s _ α l => rfl) [])⟩

/-! ## Examples -/

/-- Rows that are their own keys: below `1` are `1, 2` and `1, 3`; `4` is apart. -/
def exRows : List (Option (List Val)) := [some [.int 4], some [.int 1, .int 2], some [.int 1], some [.int 1, .int 3]]

/-- C115: four of the lists that can be returned and two that cannot: a row before the one its key starts with, and a row apart in between. -/
example : ∃ t : Trie (List Val), insertAll (Trie.new (fun _ _ => true) some) exRows = .ok t ∧
    t.searchFunc .fwd [] [] (fun _ _ => true) = [[.int 4], [.int 1], [.int 1, .int 2], [.int 1, .int 3]] ∧
    t.searchFunc .rev [] [] (fun _ _ => true) = [[.int 1], [.int 1, .int 3], [.int 1, .int 2], [.int 4]] ∧
    (∃ o, t.searchFunc o [] [] (fun _ _ => true) = [[.int 4], [.int 1], [.int 1, .int 3], [.int 1, .int 2]]) ∧
    (∃ o, t.searchFunc o [] [] (fun _ _ => true) = [[.int 1], [.int 1, .int 2], [.int 1, .int 3], [.int 4]]) ∧
    (¬ ∃ o, t.searchFunc o [] [] (fun _ _ => true) = [[.int 1, .int 2], [.int 1], [.int 1, .int 3], [.int 4]]) ∧
    ¬ ∃ o, t.searchFunc o [] [] (fun _ _ => true) = [[.int 1], [.int 1, .int 2], [.int 4], [.int 1, .int 3]] := by
  obtain ⟨t, h, h1, h2, h3, h4⟩ := Out.chk_ok (x := insertAll (Trie.new (fun _ _ => true) some) exRows) (P := fun t : Trie (List Val) =>
    t.searchFunc .fwd [] [] (fun _ _ => true) = [[.int 4], [.int 1], [.int 1, .int 2], [.int 1, .int 3]] ∧
    t.searchFunc .rev [] [] (fun _ _ => true) = [[.int 1], [.int 1, .int 3], [.int 1, .int 2], [.int 4]] ∧
    t.searchFunc (.byIndex fun s => if s = [.nil, .int 1] then [1, 0] else [0, 1]) [] [] (fun _ _ => true) =
      [[.int 4], [.int 1], [.int 1, .int 3], [.int 1, .int 2]] ∧
    t.searchFunc (.byIndex fun s => if s = [.nil] then [1, 0] else [0, 1]) [] [] (fun _ _ => true) =
      [[.int 1], [.int 1, .int 2], [.int 1, .int 3], [.int 4]]) (by decide +kernel)
  refine ⟨t, h, h1, h2, ⟨_, h3⟩, ⟨_, h4⟩, fun ho => ?_, fun ho => ?_⟩
  · obtain ⟨_, ha, _⟩ := (C115_search_order _ _ _ t h _ _ _ _).1 ho
    exact ha [.int 1, .int 2] [.int 1] (by decide) (by decide)
  · obtain ⟨_, _, ha⟩ := (C115_search_order _ _ _ t h _ _ _ _).1 ho
    have := ha [.int 1, .int 2] [.int 4] [.int 1, .int 3] (by decide) [.int 1] (by decide) (by decide)
    revert this
    decide

/-- C115: of all rows `First` can return `1` and `4`; of those with two keys it can return both. -/
example : ∃ t : Trie (List Val), insertAll (Trie.new (fun _ _ => true) some) exRows = .ok t ∧
    (∀ x, (∃ o, t.firstFunc o [] [] (fun _ _ => true) = some x) ↔ x = [.int 1] ∨ x = [.int 4]) ∧
    ∀ x, (∃ o, t.firstFunc o [] [] (fun _ y => y.length = 2) = some x) ↔ x = [.int 1, .int 2] ∨ x = [.int 1, .int 3] := by
  obtain ⟨t, h, _⟩ := Out.chk_ok (x := insertAll (Trie.new (fun _ _ => true) some) exRows) (P := fun _ => True) (by decide +kernel)
  have hs : survivors (rowKey some) (exRows.filterMap id) = [[.int 4], [.int 1, .int 2], [.int 1], [.int 1, .int 3]] := by decide +kernel
  refine ⟨t, h, fun x => ?_, fun x => ?_⟩
  · rw [C115_first _ _ _ t h, hs]
    constructor
    · rintro ⟨hx, hc, hm⟩
      revert hc hm
      rcases (by simpa using hx : x = _ ∨ x = _ ∨ x = _ ∨ x = _) with rfl | rfl | rfl | rfl <;> decide
    · rintro (rfl | rfl) <;> decide
  · rw [C115_first _ _ _ t h, hs]
    constructor
    · rintro ⟨hx, hc, hm⟩
      revert hc hm
      rcases (by simpa using hx : x = _ ∨ x = _ ∨ x = _ ∨ x = _) with rfl | rfl | rfl | rfl <;> decide
    · rintro (rfl | rfl) <;> decide

end Verif
