import Verif.Lemmas.Trie
import Verif.Model.Data
import Verif.Spec.Trie

/-!
# C07-C11: the row store (`trie.Trie`)
-/

namespace Verif
open Spec
variable {T : Type}

/-- A sequence of `Insert` calls; `none` is a nil pointer. -/
def insertAll (t : Trie T) : List (Option T) → Out (Trie T)
  | [] => .ok t
  | d :: ds => (t.insert d).bind (fun t' => insertAll t' ds)

theorem survivors_mem {key : T → List Val} {L : List T} {x : T} :
    x ∈ survivors key L ↔ (L.filter (fun e => key e = key x)).getLast? = some x := by
  induction L with
  | nil => simp [survivors]
  | cons d ds ih =>
    rw [survivors, List.filter_cons]
    by_cases hd : key d = key x
    · simp only [hd, decide_true, if_true]
      split
      · rename_i h
        rw [List.any_eq_true] at h
        obtain ⟨e, he, hk⟩ := h
        rw [ih]
        have : e ∈ ds.filter (fun e => decide (key e = key x)) := by
          rw [List.mem_filter]; exact ⟨he, by simpa [hd] using hk⟩
        cases hf : ds.filter (fun e => decide (key e = key x)) with
        | nil => rw [hf] at this; cases this
        | cons a l => rw [List.getLast?_cons_cons]
      · rename_i h
        have hnil : ds.filter (fun e => decide (key e = key x)) = [] := by
          rw [List.filter_eq_nil_iff]
          intro e he hk
          exact h (List.any_eq_true.2 ⟨e, he, by simpa [hd] using hk⟩)
        rw [hnil, List.mem_cons, ih, hnil]
        simp [eq_comm]
    · simp only [hd, decide_false, Bool.false_eq_true, if_false]
      split
      · exact ih
      · rw [List.mem_cons, ih]
        constructor
        · rintro (rfl | h)
          · exact absurd rfl hd
          · exact h
        · exact .inr

theorem survivors_pairwise {key : T → List Val} (L : List T) :
    ((survivors key L).map key).Nodup := by
  have sub : ∀ L : List T, ∀ x ∈ survivors key L, x ∈ L := by
    intro L
    induction L with
    | nil => simp [survivors]
    | cons d ds ih =>
      rw [survivors]
      split
      · intro x hx; exact List.mem_cons_of_mem _ (ih x hx)
      · intro x hx
        rcases List.mem_cons.1 hx with rfl | hx
        · simp
        · exact List.mem_cons_of_mem _ (ih x hx)
  induction L with
  | nil => simp [survivors]
  | cons d ds ih =>
    rw [survivors]
    split
    · exact ih
    · rename_i h
      rw [List.map_cons, List.nodup_cons]
      refine ⟨?_, ih⟩
      rw [List.mem_map]
      rintro ⟨e, he, hk⟩
      exact h (List.any_eq_true.2 ⟨e, sub ds e he, by simpa using hk⟩)

theorem survivors_nodup {key : T → List Val} (L : List T) : (survivors key L).Nodup :=
  List.Nodup.of_map key (survivors_pairwise L)

/-- Invariant: the trie holds the last row of the history `L` for every identity. -/
structure TrieInv (keys : T → Option (List Val)) (L : List T) (t : Trie T) : Prop where
  keysEq : t.keys = keys
  wf : t.root.WF
  find : ∀ p, t.root.find p = (L.filter (fun e => rowKey keys e = p)).getLast?

theorem TrieInv.new (m : T → T → Bool) (keys : T → Option (List Val)) :
    TrieInv keys [] (Trie.new m keys) :=
  ⟨rfl, Node.wf_new, fun p => by simp [Trie.new, Node.find_new]⟩

theorem TrieInv.insert {keys : T → Option (List Val)} {L : List T} {t t' : Trie T} {x : T}
    (h : TrieInv keys L t) (hi : t.insert (some x) = .ok t') : TrieInv keys (L ++ [x]) t' := by
  rw [Trie.insert] at hi
  simp only [h.keysEq] at hi
  cases hk : keys x with
  | none => simp [hk] at hi
  | some ks =>
    simp only [hk, Out.ok.injEq] at hi
    subst hi
    refine ⟨rfl, Node.wf_insert h.wf, fun p => ?_⟩
    simp only
    rw [Node.find_insert, h.find, List.filter_append]
    have hs : strip ks = rowKey keys x := by simp [strip, rowKey, hk]
    rw [hs]
    by_cases hp : rowKey keys x = p
    · simp [hp]
    · simp [hp]

theorem TrieInv.insertAll {keys : T → Option (List Val)} {L : List T} {t t' : Trie T}
    {hist : List (Option T)} (h : TrieInv keys L t) (hi : insertAll t hist = .ok t') :
    TrieInv keys (L ++ hist.filterMap id) t' := by
  induction hist generalizing t L with
  | nil => simp [Verif.insertAll] at hi; subst hi; simpa using h
  | cons d ds ih =>
    rw [Verif.insertAll, Out.bind_eq_ok] at hi
    obtain ⟨t1, h1, h2⟩ := hi
    cases d with
    | none => simp [Trie.insert] at h1; subst h1; simpa using ih h h2
    | some x => simpa using ih (h.insert h1) h2

theorem TrieInv.entries_perm {keys : T → Option (List Val)} {L : List T} {t : Trie T}
    (h : TrieInv keys L t) : (t.root.entries.map (·.2)).Perm (survivors (rowKey keys) L) := by
  have hkey : ∀ e ∈ t.root.entries, rowKey keys e.2 = e.1 := by
    intro e he
    have := (Node.mem_entries t.root h.wf e.1 e.2).1 he
    rw [h.find] at this
    have := List.mem_of_getLast? this
    simpa using (List.mem_filter.1 this).2
  have hnd : (t.root.entries.map (·.2)).Nodup := by
    apply List.Nodup.of_map (rowKey keys)
    rw [List.map_map]
    have : t.root.entries.map (rowKey keys ∘ fun x => x.2) = t.root.entries.map (·.1) :=
      List.map_congr_left hkey
    rw [this]
    exact Node.entries_nodup _ h.wf
  rw [List.perm_ext_iff_of_nodup hnd (survivors_nodup L)]
  intro x
  rw [survivors_mem, ← h.find, ← Node.mem_entries t.root h.wf, List.mem_map]
  constructor
  · rintro ⟨⟨p, y⟩, he, rfl⟩
    have := hkey _ he
    simp only at this ⊢
    rw [this]; exact he
  · intro hx; exact ⟨_, hx, rfl⟩

theorem TrieInv.search {keys : T → Option (List Val)} {L : List T} {t : Trie T}
    (h : TrieInv keys L t) (o : Ord) (site : List Val) (cb : T → Bool) :
    (t.search o site cb false).Perm ((survivors (rowKey keys) L).filter cb) := by
  have := (Node.dfs_all o cb (site ++ [.nil]) t.root []).2
  rw [List.nil_append] at this
  exact this.trans (h.entries_perm.filter cb)

/-- C07: a search returns, in some order, exactly the surviving rows that satisfy the callback. -/
theorem C07_search (m : T → T → Bool) (keys : T → Option (List Val)) (hist : List (Option T))
    (t : Trie T) (h : insertAll (Trie.new m keys) hist = .ok t)
    (o : Ord) (site : List Val) (filter : T) (cb : T → T → Bool) :
    (t.searchFunc o site filter cb).Perm
      ((survivors (rowKey keys) (hist.filterMap id)).filter (cb filter)) := by
  have := (TrieInv.new m keys).insertAll h
  rw [List.nil_append] at this
  exact this.search o site (cb filter)

theorem insertAll_matchFn {t t' : Trie T} {hist : List (Option T)} (h : insertAll t hist = .ok t') :
    t'.matchFn = t.matchFn := by
  induction hist generalizing t with
  | nil => simp [insertAll] at h; rw [h]
  | cons d ds ih =>
    rw [insertAll, Out.bind_eq_ok] at h
    obtain ⟨t1, h1, h2⟩ := h
    rw [ih h2]
    cases d with
    | none => simp [Trie.insert] at h1; rw [h1]
    | some x =>
      simp only [Trie.insert] at h1
      split at h1
      · cases h1
      · cases h1; rfl

/-- C07 for `Search` (the trie's own match function) and `Data`. -/
theorem C07_search_default (m : T → T → Bool) (keys : T → Option (List Val)) (hist : List (Option T))
    (t : Trie T) (h : insertAll (Trie.new m keys) hist = .ok t)
    (o : Ord) (site : List Val) (filter : T) :
    (t.searchAll o site filter).Perm
      ((survivors (rowKey keys) (hist.filterMap id)).filter (m filter)) ∧
    (t.data o site).Perm (survivors (rowKey keys) (hist.filterMap id)) := by
  have := (TrieInv.new m keys).insertAll h
  rw [List.nil_append] at this
  refine ⟨?_, ?_⟩
  · have h2 := this.search o site (t.matchFn filter)
    rw [insertAll_matchFn h] at h2
    have e : t.searchAll o site filter = t.search o site (m filter) false := by
      rw [Trie.searchAll, insertAll_matchFn h]; rfl
    rw [e]; exact h2
  · simpa [Trie.data] using this.search o site (fun _ => true)

/-- C07: each surviving row is returned exactly once. -/
theorem C07_nodup (m : T → T → Bool) (keys : T → Option (List Val)) (hist : List (Option T))
    (t : Trie T) (h : insertAll (Trie.new m keys) hist = .ok t)
    (o : Ord) (site : List Val) (filter : T) (cb : T → T → Bool) :
    (t.searchFunc o site filter cb).Nodup :=
  (C07_search m keys hist t h o site filter cb).nodup_iff.2
    (List.Nodup.filter _ (survivors_nodup _))

/-- Insertion panics exactly when the key extractor returns nil for some inserted row. -/
theorem C07_insert_total (m : T → T → Bool) (keys : T → Option (List Val)) (hist : List (Option T)) :
    (∃ t, insertAll (Trie.new m keys) hist = .ok t) ↔ ∀ x ∈ hist.filterMap id, keys x ≠ none := by
  have gen : ∀ t : Trie T, t.keys = keys →
      ((∃ t', insertAll t hist = .ok t') ↔ ∀ x ∈ hist.filterMap id, keys x ≠ none) := by
    induction hist with
    | nil => intro t _; simp [insertAll]
    | cons d ds ih =>
      intro t ht
      cases d with
      | none => simpa [insertAll, Trie.insert] using ih t ht
      | some x =>
        simp only [insertAll, Trie.insert, ht, List.filterMap_cons, id]
        cases hk : keys x with
        | none => simp [hk]
        | some ks =>
          have := ih { t with root := t.root.insert x ks, keys := keys } rfl
          simp only [Out.bind_ok, this, List.mem_cons, forall_eq_or_imp, hk]
          simp
  exact gen _ rfl

/-- Two rows with the same identity: the later one survives, and a third row is found. -/
example : (insertAll dataTrie [some { tenant := .int 1, namespace_ := .int 2 },
    some { tenant := .int 1, scope := .int 2 }, none, some { tenant := .int 3 }]).map
      (fun t => t.data Ord.rev []) =
    .ok [{ tenant := .int 3 }, { tenant := .int 1, scope := .int 2 }] := by decide

/-- C08 (for every trie whatever its history): `FirstFunc` returns nil iff the search with the same
arguments (and any iteration orders) is empty; otherwise it returns a row of that search. -/
theorem C08_first (t : Trie T) (o o' : Ord) (site site' : List Val) (filter : T) (cb : T → T → Bool) :
    (t.firstFunc o site filter cb = none ↔ t.searchFunc o' site' filter cb = []) ∧
    (∀ x, t.firstFunc o site filter cb = some x → x ∈ t.searchFunc o' site' filter cb) := by
  have hall := (Node.dfs_all o' (cb filter) (site' ++ [.nil]) t.root []).2
  rw [List.nil_append] at hall
  have hmem : ∀ x, x ∈ t.searchFunc o' site' filter cb ↔
      ∃ e ∈ t.root.entries, e.2 = x ∧ cb filter x = true := by
    intro x
    rw [Trie.searchFunc, Trie.search, hall.mem_iff, List.mem_filter, List.mem_map]
    constructor
    · rintro ⟨⟨e, he, rfl⟩, hc⟩; exact ⟨e, he, rfl, hc⟩
    · rintro ⟨e, he, rfl, hc⟩; exact ⟨⟨e, he, rfl⟩, hc⟩
  rw [Trie.firstFunc, Trie.search]
  rcases Node.dfs_stop o (cb filter) (site ++ [.nil]) t.root [] with ⟨h1, h2⟩ | ⟨e, he, hc, h1⟩
  · rw [h1]
    refine ⟨⟨fun _ => ?_, fun _ => rfl⟩, fun x hx => by simp at hx⟩
    rw [List.eq_nil_iff_forall_not_mem]
    intro x hx
    obtain ⟨e, he, rfl, hc⟩ := (hmem x).1 hx
    rw [h2 e he] at hc; cases hc
  · rw [h1]
    have hin := (hmem e.2).2 ⟨e, he, rfl, hc⟩
    refine ⟨⟨fun hx => by simp at hx, fun hx => ?_⟩, fun x hx => ?_⟩
    · rw [hx] at hin; cases hin
    · simp at hx; subst hx; exact hin

/-- C08 for `First`. -/
theorem C08_first_default (t : Trie T) (o o' : Ord) (site site' : List Val) (filter : T) :
    (t.first o site filter = none ↔ t.searchAll o' site' filter = []) ∧
    (∀ x, t.first o site filter = some x → x ∈ t.searchAll o' site' filter) :=
  C08_first t o o' site site' filter t.matchFn

example : (insertAll dataTrie [some { tenant := .int 1 }, some { tenant := .int 2 }]).map
      (fun t => (t.first Ord.rev [] { tenant := .int 1 }, t.first Ord.fwd [] { tenant := .int 9 })) =
    .ok (some { tenant := .int 1 }, none) := by decide

/-- C09, exact loss condition: inserting `y` removes `x` from the store iff `x` is another row with
the same non-nil keys. -/
theorem C09_loss_iff_partial (m : T → T → Bool) (keys : T → Option (List Val)) (hist : List (Option T))
    (t t' : Trie T) (h : insertAll (Trie.new m keys) hist = .ok t) (y : T)
    (hy : t.insert (some y) = .ok t') (o o' : Ord) (s s' : List Val) (x : T) (hx : x ∈ t.data o s) :
    x ∉ t'.data o' s' ↔ x ≠ y ∧ rowKey keys x = rowKey keys y := by
  have i1 := (TrieInv.new m keys).insertAll h
  rw [List.nil_append] at i1
  have i2 := i1.insert hy
  have m1 : ∀ z, z ∈ t.data o s ↔ _ := fun z => (i1.search o s (fun _ => true)).mem_iff
  have m2 : ∀ z, z ∈ t'.data o' s' ↔ _ := fun z => (i2.search o' s' (fun _ => true)).mem_iff
  have hx := (m1 x).1 hx
  rw [m2 x]
  simp only [List.filter_true, survivors_mem, List.filter_append] at hx ⊢
  by_cases hk : rowKey keys y = rowKey keys x
  · simp [hk, eq_comm]
  · have hk' : ¬ rowKey keys x = rowKey keys y := fun e => hk e.symm
    have e : [y].filter (fun e => decide (rowKey keys e = rowKey keys x)) = [] := by simp [hk]
    rw [e, List.append_nil, hx]
    simp [hk']

/-- C09 is false: a scope row overwrites a namespace row with the same ids. -/
theorem C09_counterexample :
    ∃ t t', insertAll dataTrie [some { tenant := .str (str "A"), namespace_ := .str (str "x") }] = .ok t ∧
      t.insert (some { tenant := .str (str "A"), scope := .str (str "x") }) = .ok t' ∧
      { tenant := .str (str "A"), namespace_ := .str (str "x") } ∈ t.data Ord.fwd [] ∧
      { tenant := .str (str "A"), namespace_ := .str (str "x") } ∉ t'.data Ord.fwd [] := by
  refine ⟨_, _, rfl, rfl, by decide, by decide⟩

/-- C09 as intended: inserting another row loses no row. -/
def C09_full : Prop := ∀ (hist : List (Option Data)) (t t' : Trie Data) (y : Data), insertAll dataTrie hist = .ok t →
  t.insert (some y) = .ok t' → ∀ (o o' : Ord) (s s' : List Val) (x : Data), x ∈ t.data o s → x ∈ t'.data o' s'

theorem C09_full_false : ¬ C09_full := by
  intro h
  obtain ⟨t, t', h1, h2, h3, h4⟩ := C09_counterexample
  exact h4 (h _ t t' _ h1 h2 _ _ _ _ _ h3)

/-- The fields of a row in key order. -/
def Data.fields (d : Data) : List Val :=
  [d.tenant, d.namespace_, d.scope, d.principal, d.role, d.manage]

/-- Every set field of the row has the kind of its position. -/
def Spec.Kinded (kind : Val → Nat) (d : Data) : Prop :=
  (d.tenant ≠ .nil → kind d.tenant = 0) ∧ (d.namespace_ ≠ .nil → kind d.namespace_ = 1) ∧
  (d.scope ≠ .nil → kind d.scope = 2) ∧ (d.principal ≠ .nil → kind d.principal = 3) ∧
  (d.role ≠ .nil → kind d.role = 4) ∧ (d.manage ≠ .nil → kind d.manage = 5)

theorem kinded_field {kind : Val → Nat} {d : Data} (h : Kinded kind d) :
    d = { tenant := ((rowKey dataKeys d).find? (fun v => kind v = 0)).getD .nil
          namespace_ := ((rowKey dataKeys d).find? (fun v => kind v = 1)).getD .nil
          scope := ((rowKey dataKeys d).find? (fun v => kind v = 2)).getD .nil
          principal := ((rowKey dataKeys d).find? (fun v => kind v = 3)).getD .nil
          role := ((rowKey dataKeys d).find? (fun v => kind v = 4)).getD .nil
          manage := ((rowKey dataKeys d).find? (fun v => kind v = 5)).getD .nil } := by
  obtain ⟨t, n, s, p, r, m⟩ := d
  obtain ⟨h0, h1, h2, h3, h4, h5⟩ := h
  simp only at h0 h1 h2 h3 h4 h5
  by_cases e0 : t = .nil <;> by_cases e1 : n = .nil <;> by_cases e2 : s = .nil <;>
  by_cases e3 : p = .nil <;> by_cases e4 : r = .nil <;> by_cases e5 : m = .nil <;>
  simp_all [rowKey, dataKeys]

/-- C09, the positive part: when ids of different kinds are disjoint, no insertion loses a row. -/
theorem C09_no_loss_partial (kind : Val → Nat) (m : Data → Data → Bool) (hist : List (Option Data))
    (t t' : Trie Data) (h : insertAll (Trie.new m dataKeys) hist = .ok t) (y : Data)
    (hy : t.insert (some y) = .ok t') (o o' : Ord) (s s' : List Val) (x : Data)
    (hx : x ∈ t.data o s) (kx : Kinded kind x) (ky : Kinded kind y) : x ∈ t'.data o' s' := by
  by_contra hn
  obtain ⟨hne, hk⟩ := (C09_loss_iff_partial m dataKeys hist t t' h y hy o o' s s' x hx).1 hn
  apply hne
  rw [kinded_field kx, kinded_field ky, hk]

example : Kinded (fun v => match v with | .bool _ => 5 | .str (84 :: _) => 0 | _ => 1)
    { tenant := .str [84, 1], namespace_ := .str [78, 1], manage := .bool true } := by
  simp [Kinded]

/-- C10: insertion order of rows with pairwise different identities is irrelevant. -/
theorem C10_order (m : T → T → Bool) (keys : T → Option (List Val)) (h1 h2 : List (Option T))
    (hp : h1.Perm h2) (hd : ((h1.filterMap id).map (rowKey keys)).Nodup) (t1 t2 : Trie T)
    (e1 : insertAll (Trie.new m keys) h1 = .ok t1) (e2 : insertAll (Trie.new m keys) h2 = .ok t2)
    (o1 o2 : Ord) (s1 s2 : List Val) (filter : T) (cb : T → T → Bool) :
    (t1.searchFunc o1 s1 filter cb).Perm (t2.searchFunc o2 s2 filter cb) := by
  have id_of : ∀ L : List T, (L.map (rowKey keys)).Nodup → survivors (rowKey keys) L = L := by
    intro L
    induction L with
    | nil => intro _; rfl
    | cons d ds ih =>
      intro hn
      rw [List.map_cons, List.nodup_cons] at hn
      rw [survivors, if_neg, ih hn.2]
      rw [List.any_eq_true]
      rintro ⟨e, he, hk⟩
      exact hn.1 (List.mem_map.2 ⟨e, he, by simpa using hk⟩)
  have p := hp.filterMap id
  have s1' := C07_search m keys h1 t1 e1 o1 s1 filter cb
  have s2' := C07_search m keys h2 t2 e2 o2 s2 filter cb
  rw [id_of _ hd] at s1'
  rw [id_of _ ((p.map (rowKey keys)).nodup_iff.1 hd)] at s2'
  exact s1'.trans ((p.filter _).trans s2'.symm)

/-- C10: inserting an already stored row again changes no search. -/
theorem C10_reinsert (m : T → T → Bool) (keys : T → Option (List Val)) (hist : List (Option T))
    (t t' : Trie T) (h : insertAll (Trie.new m keys) hist = .ok t) (x : T)
    (o0 : Ord) (s0 : List Val) (hx : x ∈ t.data o0 s0) (hi : t.insert (some x) = .ok t')
    (o o' : Ord) (s s' : List Val) (filter : T) (cb : T → T → Bool) :
    (t'.searchFunc o s filter cb).Perm (t.searchFunc o' s' filter cb) := by
  have i1 := (TrieInv.new m keys).insertAll h
  rw [List.nil_append] at i1
  have i2 := i1.insert hi
  have hx := ((i1.search o0 s0 (fun _ => true)).mem_iff (a := x)).1 hx
  simp only [List.filter_true] at hx
  refine (i2.search o s (cb filter)).trans (List.Perm.trans ?_ (i1.search o' s' (cb filter)).symm)
  apply List.Perm.filter
  rw [List.perm_ext_iff_of_nodup (survivors_nodup _) (survivors_nodup _)]
  intro y
  rw [survivors_mem, survivors_mem, List.filter_append]
  rw [survivors_mem] at hx
  by_cases hk : rowKey keys x = rowKey keys y
  · simp only [hk] at hx
    have e : [x].filter (fun e => decide (rowKey keys e = rowKey keys y)) = [x] := by simp [hk]
    rw [e, hx]; simp
  · have e : [x].filter (fun e => decide (rowKey keys e = rowKey keys y)) = [] := by simp [hk]
    rw [e, List.append_nil]

example : ((([some { tenant := .int 1 }, some { tenant := .int 2, scope := .int 1 }] :
    List (Option Data)).filterMap id).map (rowKey dataKeys)).Nodup := by decide

/-- What `FilterFunc` should mean: agreement on every field the filter sets. -/
def Spec.agrees (filter row : Data) : Prop :=
  ∀ f ∈ [Data.tenant, Data.principal, Data.role, Data.namespace_, Data.scope, Data.manage],
    f filter ≠ .nil → f row = f filter

theorem filterFunc_iff (filter row : Data) : filterFunc filter row = true ↔ agrees filter row := by
  have ite_f : ∀ (c X : Bool), ((if c = true then false else X) = true) ↔ (c = false ∧ X = true) := by
    intro c X; cases c <;> simp
  have key : ∀ (a b : Val), (!isNil a && !(if isNil b = true then false else decide (b = a))) = false ↔
      (a ≠ .nil → b = a) := by
    intro a b
    by_cases ha : a = .nil
    · simp [isNil, ha]
    · by_cases hb : b = .nil
      · have : ¬ Val.nil = a := fun e => ha e.symm
        simp [isNil, ha, hb, this]
      · simp [isNil, ha, hb]
  have keym : ∀ (a b : Val), (!isNil a && decide (a ≠ b)) = false ↔ (a ≠ .nil → b = a) := by
    intro a b
    by_cases ha : a = .nil
    · simp [isNil, ha]
    · by_cases hab : a = b
      · simp [isNil, hab]
      · have : ¬ b = a := fun e => hab e.symm
        simp [isNil, ha, hab, this]
  simp only [agrees, List.mem_cons, List.not_mem_nil, or_false, forall_eq_or_imp, forall_eq]
  rw [filterFunc, ite_f, ite_f, ite_f, ite_f, ite_f, ite_f, matchTenant, matchPrincipal, matchRole,
    matchNamespace, matchScope, key, key, key, key, key, keym]
  simp

/-- C11: the default search of a manager's trie returns exactly the stored rows that agree with the
filter on every field the filter sets. -/
theorem C11_default_search (hist : List (Option Data)) (t : Trie Data)
    (h : insertAll dataTrie hist = .ok t) (o : Ord) (site : List Val) (filter : Data) (row : Data) :
    row ∈ t.searchAll o site filter ↔
      row ∈ survivors (rowKey dataKeys) (hist.filterMap id) ∧ agrees filter row := by
  have := (C07_search_default filterFunc dataKeys hist t h o site filter).1
  rw [this.mem_iff, List.mem_filter, filterFunc_iff]

example : (insertAll dataTrie [some { tenant := .int 1, scope := .int 5 }, some { tenant := .int 2, scope := .int 5 },
      some { tenant := .int 2 }]).map (fun t => t.searchAll Ord.fwd [] { tenant := .int 2, scope := .int 5 }) =
    .ok [{ tenant := .int 2, scope := .int 5 }] := by decide

end Verif
