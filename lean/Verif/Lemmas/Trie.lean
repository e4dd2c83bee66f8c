import Mathlib.Data.List.Perm.Basic
import Mathlib.Data.List.Nodup
import Verif.Model.Trie

namespace Verif
variable {T : Type}

/-- Keys of a child map. -/
def Forest.keys : Forest T → List Val
  | .nil => []
  | .cons k _ rest => k :: rest.keys

mutual
/-- Every child map below has unique, non-nil keys. -/
def Node.WF : Node T → Prop
  | .mk _ ch => ch.keys.Nodup ∧ ch.WF
def Forest.WF : Forest T → Prop
  | .nil => True
  | .cons k n rest => k ≠ .nil ∧ n.WF ∧ rest.WF
end

/-- The row stored under a path. -/
def Node.find : List Val → Node T → Option T
  | [], .mk d _ => d
  | k :: ks, .mk _ ch =>
    match ch.get k with
    | none => none
    | some n => n.find ks

mutual
/-- All stored rows with their paths. -/
def Node.entries : Node T → List (List Val × T)
  | .mk d ch => (d.map (fun x => ([], x))).toList ++ ch.entries
def Forest.entries : Forest T → List (List Val × T)
  | .nil => []
  | .cons k n rest => n.entries.map (fun e => (k :: e.1, e.2)) ++ rest.entries
end

/-- Drop the nil keys. -/
def strip (ks : List Val) : List Val := ks.filter (· ≠ .nil)

theorem Forest.get_set (k k' : Val) (n : Node T) (f : Forest T) :
    (f.set k n).get k' = if k = k' then some n else f.get k' := by
  fun_induction Forest.set k n f with
  | case1 => simp [get]
  | case2 n' rest => simp only [get]; split <;> rfl
  | case3 a n' rest h ih =>
    simp only [get, ih]
    split
    · rename_i h2; subst h2; rw [if_neg (fun e => h e.symm)]
    · rfl

theorem Forest.keys_set (k : Val) (n : Node T) (f : Forest T) :
    (f.set k n).keys = if k ∈ f.keys then f.keys else f.keys ++ [k] := by
  fun_induction Forest.set k n f with
  | case1 => simp [keys]
  | case2 n' rest => simp [keys]
  | case3 a n' rest h ih =>
    simp only [keys, ih, List.mem_cons]
    by_cases h2 : k ∈ rest.keys
    · simp [h2]
    · have : ¬ k = a := fun e => h e.symm
      simp [h2, this]

theorem Forest.wf_set {k : Val} {n : Node T} {f : Forest T} (hk : k ≠ .nil) (hn : n.WF) (hf : f.WF) :
    (f.set k n).WF := by
  fun_induction Forest.set k n f with
  | case1 => simp [Forest.WF, hk, hn]
  | case2 n' rest => simp only [Forest.WF] at hf ⊢; exact ⟨hk, hn, hf.2.2⟩
  | case3 a n' rest h ih => simp only [Forest.WF] at hf ⊢; exact ⟨hf.1, hf.2.1, ih hf.2.2⟩

theorem Forest.wf_get {k : Val} {n : Node T} {f : Forest T} (hf : f.WF) (h : f.get k = some n) : n.WF := by
  fun_induction Forest.get k f with
  | case1 => cases h
  | case2 n' rest => simp only [Forest.WF] at hf; cases h; exact hf.2.1
  | case3 a n' rest h2 ih => simp only [Forest.WF] at hf; exact ih hf.2.2 h

theorem Node.wf_new : (Node.new : Node T).WF := by
  simp [Node.new, Node.WF, Forest.keys, Forest.WF]

theorem Node.wf_insert {x : T} {ks : List Val} {n : Node T} (h : n.WF) : (n.insert x ks).WF := by
  induction ks generalizing n with
  | nil => cases n; simpa [Node.insert, Node.WF] using h
  | cons k ks ih =>
    cases n with
    | mk d ch =>
      rw [Node.insert]
      split
      · exact ih h
      · rename_i hk
        rw [Node.WF] at h ⊢
        refine ⟨?_, Forest.wf_set hk (ih ?_) h.2⟩
        · rw [Forest.keys_set]
          split
          · exact h.1
          · rename_i hm
            rw [List.nodup_append]
            refine ⟨h.1, by simp, ?_⟩
            intro a ha b hb e
            simp only [List.mem_singleton] at hb
            subst hb; subst e; exact hm ha
        · cases hg : ch.get k with
          | none => exact wf_new
          | some c => exact Forest.wf_get h.2 hg

theorem Node.find_new (p : List Val) : (Node.new : Node T).find p = none := by
  cases p <;> rfl

theorem Node.find_insert (x : T) (ks p : List Val) (n : Node T) :
    (n.insert x ks).find p = if strip ks = p then some x else n.find p := by
  induction ks generalizing n p with
  | nil =>
    cases n with
    | mk d ch => cases p <;> simp [Node.insert, Node.find, strip]
  | cons k ks ih =>
    cases n with
    | mk d ch =>
      rw [Node.insert]
      by_cases hk : k = .nil
      · rw [if_pos hk, ih]; simp [strip, hk]
      · rw [if_neg hk]
        have hs : strip (k :: ks) = k :: strip ks := by simp [strip, hk]
        rw [hs]
        cases p with
        | nil => simp [Node.find]
        | cons a p =>
          simp only [Node.find, Forest.get_set]
          by_cases ha : k = a
          · subst ha
            simp only [if_true, ih, List.cons.injEq, true_and]
            split
            · rfl
            · cases hg : ch.get k with
              | none => simp [Node.find_new]
              | some c => simp
          · simp [ha]

/-- Entries are exactly what can be found, and a path has at most one entry. -/
theorem Forest.mem_keys_of_get {k : Val} {n : Node T} {f : Forest T} (h : f.get k = some n) : k ∈ f.keys := by
  fun_induction Forest.get k f with
  | case1 => cases h
  | case2 => simp [keys]
  | case3 a n' rest h2 ih => simp [keys, ih h]

mutual
theorem Node.mem_entries (n : Node T) (h : n.WF) (p : List Val) (x : T) :
    (p, x) ∈ n.entries ↔ n.find p = some x := by
  cases n with
  | mk d ch =>
    rw [Node.WF] at h
    rw [Node.entries, List.mem_append, Forest.mem_entries ch h.2 h.1 p x]
    cases p with
    | nil => cases d <;> simp [Node.find, eq_comm]
    | cons k ks => cases d <;> simp [Node.find] <;> cases ch.get k <;> simp
theorem Forest.mem_entries (f : Forest T) (h : f.WF) (hn : f.keys.Nodup) (p : List Val) (x : T) :
    (p, x) ∈ f.entries ↔ ∃ k ks n, p = k :: ks ∧ f.get k = some n ∧ n.find ks = some x := by
  cases f with
  | nil => simp [Forest.entries, Forest.get]
  | cons a c rest =>
    rw [Forest.WF] at h
    rw [Forest.keys, List.nodup_cons] at hn
    rw [Forest.entries, List.mem_append, Forest.mem_entries rest h.2.2 hn.2 p x]
    have hc := Node.mem_entries c h.2.1
    constructor
    · rintro (hm | ⟨k, ks, n, rfl, hg, hf⟩)
      · simp only [List.mem_map, Prod.mk.injEq, Prod.exists] at hm
        obtain ⟨q, y, hq, rfl, rfl⟩ := hm
        exact ⟨a, q, c, rfl, by simp [Forest.get], (hc _ _).1 hq⟩
      · refine ⟨k, ks, n, rfl, ?_, hf⟩
        rw [Forest.get, if_neg (fun (e : a = k) => hn.1 (e ▸ Forest.mem_keys_of_get hg))]
        exact hg
    · rintro ⟨k, ks, n, rfl, hg, hf⟩
      rw [Forest.get] at hg
      split at hg
      · rename_i e; subst e; cases hg
        exact .inl (List.mem_map.2 ⟨(ks, x), (hc _ _).2 hf, rfl⟩)
      · exact .inr ⟨k, ks, n, rfl, hg, hf⟩
end

mutual
theorem Node.entries_nodup (n : Node T) (h : n.WF) : (n.entries.map (·.1)).Nodup := by
  cases n with
  | mk d ch =>
    rw [Node.WF] at h
    have ih := Forest.entries_nodup ch h.2 h.1
    rw [Node.entries, List.map_append, List.nodup_append]
    refine ⟨by cases d <;> simp, ih, ?_⟩
    intro p hp q hq e
    subst e
    have hp0 : p = [] := by cases d <;> simp at hp; exact hp
    subst hp0
    obtain ⟨⟨q, x⟩, hq, rfl⟩ := List.mem_map.1 hq
    obtain ⟨k, ks, n, hk, _⟩ := (Forest.mem_entries ch h.2 h.1 _ x).1 hq
    cases hk
theorem Forest.entries_nodup (f : Forest T) (h : f.WF) (hn : f.keys.Nodup) :
    (f.entries.map (·.1)).Nodup := by
  cases f with
  | nil => simp [Forest.entries]
  | cons a c rest =>
    rw [Forest.WF] at h
    rw [Forest.keys, List.nodup_cons] at hn
    have ih1 := Node.entries_nodup c h.2.1
    have ih2 := Forest.entries_nodup rest h.2.2 hn.2
    rw [Forest.entries, List.map_append, List.nodup_append]
    refine ⟨?_, ih2, ?_⟩
    · rw [List.map_map]
      have : ((fun e : List Val × T => e.1) ∘ fun e : List Val × T => (a :: e.1, e.2)) =
          (fun q => a :: q) ∘ (fun e => e.1) := rfl
      rw [this, ← List.map_map]
      exact List.Nodup.map (fun _ _ e => (List.cons.inj e).2) ih1
    · intro p hp q hq e
      subst e
      obtain ⟨⟨q, x⟩, hq', rfl⟩ := List.mem_map.1 hq
      obtain ⟨k, ks, n, hk, hg, _⟩ := (Forest.mem_entries rest h.2.2 hn.2 _ x).1 hq'
      simp only [List.map_map, List.mem_map, Function.comp] at hp
      obtain ⟨e, _, he⟩ := hp
      rw [hk] at he
      cases he
      exact hn.1 (Forest.mem_keys_of_get hg)
end

/-- A family of visits that never stop and append lists. -/
theorem runVisits_append {fs : List (List T → Bool × List T)} {g : (List T → Bool × List T) → List T}
    (hg : ∀ f ∈ fs, ∀ r, (f r).1 = false ∧ ((f r).2).Perm (r ++ g f)) (r : List T) :
    (runVisits fs r).1 = false ∧ ((runVisits fs r).2).Perm (r ++ fs.flatMap g) := by
  induction fs generalizing r with
  | nil => simp [runVisits]
  | cons f fs ih =>
    have hf := hg f (by simp) r
    rw [runVisits]
    cases h : f r with
    | mk b r' =>
      rw [h] at hf
      simp only at hf
      obtain ⟨rfl, hp⟩ := hf
      obtain ⟨h1, h2⟩ := ih (fun f' hf' => hg f' (by simp [hf'])) r'
      refine ⟨h1, h2.trans ?_⟩
      rw [List.flatMap_cons, ← List.append_assoc]
      exact hp.append_right _

mutual
/-- Full search: never stops, appends a permutation of the matching entries. -/
theorem Node.dfs_all (o : Ord) (cb : T → Bool) (path : List Val) (n : Node T) (r : List T) :
    (n.dfs o cb false path r).1 = false ∧
      ((n.dfs o cb false path r).2).Perm (r ++ (n.entries.map (·.2)).filter cb) := by
  cases n with
  | mk d ch =>
    have ih := Forest.visits_all o cb path ch
    obtain ⟨g, hg1, hg2⟩ := ih
    have key : ∀ r, (runVisits (o.ord path _ (ch.visits o cb false path)) r).1 = false ∧
        ((runVisits (o.ord path _ (ch.visits o cb false path)) r).2).Perm
          (r ++ (ch.entries.map (·.2)).filter cb) := by
      intro r
      have := runVisits_append (fs := o.ord path _ (ch.visits o cb false path)) (g := g)
        (fun f hf => hg1 f (Ord.mem_ord.1 hf)) r
      refine ⟨this.1, this.2.trans ?_⟩
      apply List.Perm.append_left
      exact ((o.perm path _ (ch.visits o cb false path)).flatMap_right g).trans hg2
    rw [Node.entries, Node.dfs]
    cases d with
    | none => simpa using key r
    | some x =>
      simp only [Bool.false_eq_true, if_false]
      by_cases hx : cb x
      · simp only [hx, if_true]
        obtain ⟨h1, h2⟩ := key (r ++ [x])
        exact ⟨h1, h2.trans (by simp [hx])⟩
      · simp only [hx, Bool.false_eq_true, if_false]
        obtain ⟨h1, h2⟩ := key r
        exact ⟨h1, h2.trans (by simp [hx])⟩
theorem Forest.visits_all (o : Ord) (cb : T → Bool) (path : List Val) (f : Forest T) :
    ∃ g : (List T → Bool × List T) → List T,
      (∀ v ∈ f.visits o cb false path, ∀ r, (v r).1 = false ∧ ((v r).2).Perm (r ++ g v)) ∧
      ((f.visits o cb false path).flatMap g).Perm ((f.entries.map (·.2)).filter cb) := by
  cases f with
  | nil => exact ⟨fun _ => [], by simp [Forest.visits], by simp [Forest.visits, Forest.entries]⟩
  | cons k n rest =>
    have h1 := Node.dfs_all o cb (path ++ [k]) n
    obtain ⟨_, h2, h3⟩ := Forest.visits_all o cb path rest
    -- a visit's contribution is what it appends to the empty list
    refine ⟨fun v => (v []).2, ?_, ?_⟩
    · intro v hv r
      rw [Forest.visits] at hv
      rcases List.mem_cons.1 hv with rfl | hv
      · refine ⟨(h1 r).1, (h1 r).2.trans (List.Perm.append_left _ ?_)⟩
        simpa using (h1 []).2.symm
      · refine ⟨(h2 v hv r).1, (h2 v hv r).2.trans (List.Perm.append_left _ ?_)⟩
        simpa using (h2 v hv []).2.symm
    · rw [Forest.visits, List.flatMap_cons, Forest.entries, List.map_append, List.filter_append]
      refine List.Perm.append ?_ (List.Perm.trans ?_ h3)
      · have := (h1 []).2
        simpa [List.map_map, Function.comp_def] using this
      · refine List.Perm.flatMap_left _ (fun v hv => ?_)
        simpa using (h2 v hv []).2
end

/-- Visits with early stop. -/
theorem runVisits_stop {fs : List (List T → Bool × List T)} {S : (List T → Bool × List T) → T → Prop}
    (hs : ∀ f ∈ fs, ∀ r, ((f r) = (false, r) ∧ ∀ x, ¬ S f x) ∨ ∃ x, S f x ∧ f r = (true, r ++ [x])) (r : List T) :
    (runVisits fs r = (false, r) ∧ ∀ f ∈ fs, ∀ x, ¬ S f x) ∨
      ∃ f ∈ fs, ∃ x, S f x ∧ runVisits fs r = (true, r ++ [x]) := by
  induction fs with
  | nil => simp [runVisits]
  | cons f fs ih =>
    rw [runVisits]
    rcases hs f (by simp) r with ⟨h1, h2⟩ | ⟨x, h1, h2⟩
    · rw [h1]
      rcases ih (fun f' hf' => hs f' (by simp [hf'])) with ⟨h3, h4⟩ | ⟨f', hf', x, h3, h4⟩
      · left
        refine ⟨h3, fun f' hf' x => ?_⟩
        rcases List.mem_cons.1 hf' with rfl | hf'
        · exact h2 x
        · exact h4 f' hf' x
      · exact .inr ⟨f', by simp [hf'], x, h3, h4⟩
    · rw [h2]; exact .inr ⟨f, by simp, x, h1, rfl⟩

mutual
/-- Search with early stop: nothing matches and nothing is added, or one matching entry is added. -/
theorem Node.dfs_stop (o : Ord) (cb : T → Bool) (path : List Val) (n : Node T) (r : List T) :
    (n.dfs o cb true path r = (false, r) ∧ ∀ e ∈ n.entries, cb e.2 = false) ∨
      ∃ e ∈ n.entries, cb e.2 = true ∧ n.dfs o cb true path r = (true, r ++ [e.2]) := by
  cases n with
  | mk d ch =>
    obtain ⟨S, hS, hS1, hS2⟩ := Forest.visits_stop o cb path ch
    have key : ∀ r, (runVisits (o.ord path _ (ch.visits o cb true path)) r = (false, r) ∧
          ∀ e ∈ ch.entries, cb e.2 = false) ∨
        ∃ e ∈ ch.entries, cb e.2 = true ∧
          runVisits (o.ord path _ (ch.visits o cb true path)) r = (true, r ++ [e.2]) := by
      intro r
      rcases runVisits_stop (fs := o.ord path _ (ch.visits o cb true path)) (S := S)
        (fun f hf => hS f (Ord.mem_ord.1 hf)) r with ⟨h1, h2⟩ | ⟨f, hf, x, hx, h1⟩
      · exact .inl ⟨h1, hS2 (fun f hf => h2 f (Ord.mem_ord.2 hf))⟩
      · obtain ⟨e, he, hc, rfl⟩ := hS1 f (Ord.mem_ord.1 hf) x hx
        exact .inr ⟨e, he, hc, h1⟩
    rw [Node.entries, Node.dfs]
    cases d with
    | none => simpa using key r
    | some x =>
      simp only [if_true]
      by_cases hx : cb x
      · exact .inr ⟨([], x), by simp, hx, by simp [hx]⟩
      · simp only [hx, Bool.false_eq_true, if_false]
        rcases key r with ⟨h1, h2⟩ | ⟨e, he, hc, h1⟩
        · left
          refine ⟨h1, fun e he => ?_⟩
          rcases List.mem_append.1 he with he | he
          · have he : e = ([], x) := by simpa using he
            subst he; simpa using hx
          · exact h2 e he
        · exact .inr ⟨e, by simp [he], hc, h1⟩
theorem Forest.visits_stop (o : Ord) (cb : T → Bool) (path : List Val) (f : Forest T) :
    ∃ S : (List T → Bool × List T) → T → Prop,
      (∀ v ∈ f.visits o cb true path, ∀ r, (v r = (false, r) ∧ ∀ x, ¬ S v x) ∨
        ∃ x, S v x ∧ v r = (true, r ++ [x])) ∧
      (∀ v ∈ f.visits o cb true path, ∀ x, S v x → ∃ e ∈ f.entries, cb e.2 = true ∧ e.2 = x) ∧
      ((∀ v ∈ f.visits o cb true path, ∀ x, ¬ S v x) → ∀ e ∈ f.entries, cb e.2 = false) := by
  cases f with
  | nil => exact ⟨fun _ _ => False, by simp [Forest.visits], by simp, by simp [Forest.entries]⟩
  | cons k n rest =>
    have h1 := Node.dfs_stop o cb (path ++ [k]) n
    obtain ⟨S, h2, h3, h4⟩ := Forest.visits_stop o cb path rest
    refine ⟨fun v x => ∃ r, v r = (true, r ++ [x]), ?_, ?_, ?_⟩
    · intro v hv r
      rw [Forest.visits] at hv
      rcases List.mem_cons.1 hv with rfl | hv
      · rcases h1 r with ⟨a, b⟩ | ⟨e, he, hc, a⟩
        · refine .inl ⟨a, ?_⟩
          rintro x ⟨r', hr'⟩
          rcases h1 r' with ⟨a', _⟩ | ⟨e, he, hc, _⟩
          · rw [a'] at hr'; cases hr'
          · rw [b e he] at hc; cases hc
        · exact .inr ⟨e.2, ⟨r, a⟩, a⟩
      · rcases h2 v hv r with ⟨a, b⟩ | ⟨x, hx, a⟩
        · refine .inl ⟨a, ?_⟩
          rintro x ⟨r', hr'⟩
          rcases h2 v hv r' with ⟨a', _⟩ | ⟨y, hy, _⟩
          · rw [a'] at hr'; cases hr'
          · exact b y hy
        · exact .inr ⟨x, ⟨r, a⟩, a⟩
    · rintro v hv x ⟨r, hr⟩
      rw [Forest.visits] at hv
      rcases List.mem_cons.1 hv with rfl | hv
      · rcases h1 r with ⟨a, b⟩ | ⟨e, he, hc, a⟩
        · rw [a] at hr; cases hr
        · rw [a] at hr
          have : e.2 = x := by simpa using hr
          refine ⟨(k :: e.1, e.2), ?_, hc, this⟩
          rw [Forest.entries]
          exact List.mem_append_left _ (List.mem_map.2 ⟨e, he, rfl⟩)
      · rcases h2 v hv r with ⟨a, b⟩ | ⟨y, hy, a⟩
        · rw [a] at hr; cases hr
        · rw [a] at hr
          have : y = x := by simpa using hr
          subst this
          obtain ⟨e, he, hc, hh⟩ := h3 v hv y hy
          refine ⟨e, ?_, hc, hh⟩
          rw [Forest.entries]
          exact List.mem_append_right _ he
    · intro hno e he
      rw [Forest.entries] at he
      rw [Forest.visits] at hno
      rcases List.mem_append.1 he with he | he
      · obtain ⟨e', he', rfl⟩ := List.mem_map.1 he
        rcases h1 [] with ⟨a, b⟩ | ⟨e'', he'', hc, a⟩
        · exact b e' he'
        · exact absurd ⟨[], a⟩ (hno _ (by simp) e''.2)
      · refine h4 (fun v hv x hx => ?_) e he
        rcases h2 v hv [] with ⟨a, b⟩ | ⟨y, hy, a⟩
        · exact b x hx
        · exact hno v (by simp [hv]) y ⟨[], a⟩
end

end Verif
