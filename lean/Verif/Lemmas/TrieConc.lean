import Mathlib.Data.List.Perm.Basic
import Mathlib.Data.List.Nodup
import Verif.Lemmas.Trie
import Verif.Spec.TrieConc

namespace Verif
namespace TC
variable {T : Type}

theorem get_edit (h : Heap T) (n m : Nat) (f : Cell T → Cell T) :
    (h.edit n f)[m]? = if n = m then h[m]?.map f else h[m]? := by
  unfold Heap.edit
  rw [List.getElem?_modify]
  split
  · rfl
  · simp

theorem length_edit (h : Heap T) (n : Nat) (f : Cell T → Cell T) : (h.edit n f).length = h.length := by
  simp [Heap.edit]

theorem lt_of_get {h : Heap T} {n : Nat} {c : Cell T} (e : h[n]? = some c) : n < h.length :=
  (List.getElem?_eq_some_iff.1 e).1

theorem get_of_lt {h : Heap T} {n : Nat} (e : n < h.length) : ∃ c : Cell T, h[n]? = some c :=
  ⟨h[n], List.getElem?_eq_getElem e⟩

/-- The heap after `NewNode` and `Set` (trie/trie.go:30-31). -/
def Heap.grow (h : Heap T) (n : Nat) (k : Val) : Heap T :=
  h.edit n (fun c => { c with child := c.child.set k h.length }) ++ [Cell.new]

theorem length_grow (h : Heap T) (n : Nat) (k : Val) : (h.grow n k).length = h.length + 1 := by
  simp [Heap.grow, length_edit]

theorem get_grow {h : Heap T} {n : Nat} {k : Val} {m : Nat} {c : Cell T}
    (e : (h.grow n k)[m]? = some c) :
    (m = h.length ∧ c = Cell.new) ∨
    (m < h.length ∧ ∃ c0 : Cell T, h[m]? = some c0 ∧
      ((n = m ∧ c = { c0 with child := c0.child.set k h.length }) ∨ (n ≠ m ∧ c = c0))) := by
  unfold Heap.grow at e
  rw [List.getElem?_append] at e
  split at e
  · rename_i hm
    rw [length_edit] at hm
    right
    refine ⟨hm, ?_⟩
    rw [get_edit] at e
    split at e
    · rename_i hn
      rw [Option.map_eq_some_iff] at e
      obtain ⟨c0, h1, h2⟩ := e
      exact ⟨c0, h1, Or.inl ⟨hn, h2.symm⟩⟩
    · rename_i hn
      exact ⟨c, e, Or.inr ⟨hn, rfl⟩⟩
  · rename_i hm
    rw [length_edit] at hm e
    left
    have hl : m - h.length < ([Cell.new] : List (Cell T)).length := (List.getElem?_eq_some_iff.1 e).1
    simp only [List.length_singleton] at hl
    have : m = h.length := by omega
    subst this
    simp at e
    exact ⟨rfl, e.symm⟩

theorem grow_get {h : Heap T} {n : Nat} {k : Val} {m : Nat} {c0 : Cell T} (e : h[m]? = some c0) :
    (h.grow n k)[m]? =
      some (if n = m then { c0 with child := c0.child.set k h.length } else c0) := by
  unfold Heap.grow
  rw [List.getElem?_append_left (by rw [length_edit]; exact lt_of_get e), get_edit, e]
  split <;> rfl

theorem grow_new {h : Heap T} {n : Nat} {k : Val} : (h.grow n k)[h.length]? = some Cell.new := by
  unfold Heap.grow
  rw [List.getElem?_append_right (by rw [length_edit]; exact Nat.le_refl _), length_edit]
  simp

/-- The nodes form a tree with the given paths. -/
structure Shape (keys : T → List Val) (h : Heap T) (path : Nat → List Val) : Prop where
  pos : 0 < h.length
  root : path 0 = []
  wf : ∀ (n : Nat) (c : Cell T), h[n]? = some c → c.child.WF
  kid : ∀ (n : Nat) (c : Cell T) (k : Val) (m : Nat), h[n]? = some c → c.child.get k = some m →
    k ≠ .nil ∧ m < h.length ∧ path m = path n ++ [k]
  data : ∀ (n : Nat) (c : Cell T) (x : T), h[n]? = some c → c.data = some x → key keys x = path n
  mark : ∀ (n : Nat) (c : Cell T), h[n]? = some c → c.data.isSome → c.isEnd = true

theorem Shape.marked {keys : T → List Val} {h : Heap T} {path : Nat → List Val} (s : Shape keys h path)
    (n : Nat) : Shape keys (h.edit n (fun c => { c with isEnd := true })) path := by
  have g : ∀ (m : Nat) (c : Cell T), (h.edit n (fun c => { c with isEnd := true }))[m]? = some c →
      ∃ c0 : Cell T, h[m]? = some c0 ∧ c.child = c0.child ∧ c.data = c0.data ∧ (c0.isEnd = true → c.isEnd = true) := by
    intro m c e
    rw [get_edit] at e
    split at e
    · rw [Option.map_eq_some_iff] at e
      obtain ⟨c0, h1, h2⟩ := e
      subst h2
      exact ⟨c0, h1, rfl, rfl, fun _ => rfl⟩
    · exact ⟨c, e, rfl, rfl, id⟩
  refine ⟨by rw [length_edit]; exact s.pos, s.root, ?_, ?_, ?_, ?_⟩
  · intro m c e
    obtain ⟨c0, h1, h2, _⟩ := g m c e
    rw [h2]; exact s.wf m c0 h1
  · intro m c k r e e2
    obtain ⟨c0, h1, h2, _⟩ := g m c e
    rw [h2] at e2
    rw [length_edit]; exact s.kid m c0 k r h1 e2
  · intro m c x e e2
    obtain ⟨c0, h1, _, h3, _⟩ := g m c e
    rw [h3] at e2; exact s.data m c0 x h1 e2
  · intro m c e e2
    obtain ⟨c0, h1, _, h3, h4⟩ := g m c e
    rw [h3] at e2; exact h4 (s.mark m c0 h1 e2)

theorem Shape.grown {keys : T → List Val} {h : Heap T} {path : Nat → List Val} (s : Shape keys h path)
    {n : Nat} {k : Val} (hk : k ≠ .nil) :
    Shape keys (h.grow n k) (fun m => if m = h.length then path n ++ [k] else path m) := by
  have hp := s.pos
  refine ⟨by rw [length_grow]; omega, by rw [if_neg (by omega)]; exact s.root, ?_, ?_, ?_, ?_⟩
  · intro m c e
    rcases get_grow e with ⟨_, rfl⟩ | ⟨_, c0, h1, ⟨_, rfl⟩ | ⟨_, rfl⟩⟩
    · exact GoMap.wf_nil
    · exact GoMap.wf_set (s.wf m c0 h1) _ _
    · exact s.wf m _ h1
  · intro m c k' r e e2
    rw [length_grow]
    rcases get_grow e with ⟨_, rfl⟩ | ⟨hm, c0, h1, ⟨rfl, rfl⟩ | ⟨_, rfl⟩⟩
    · cases e2
    · simp only [GoMap.get_set] at e2
      rw [if_neg (Nat.ne_of_lt hm)]
      split at e2
      · rename_i hkk
        cases e2
        subst hkk
        exact ⟨hk, by omega, by rw [if_pos rfl]⟩
      · obtain ⟨a, b, d⟩ := s.kid n c0 k' r h1 e2
        exact ⟨a, by omega, by rw [if_neg (Nat.ne_of_lt b)]; exact d⟩
    · obtain ⟨a, b, d⟩ := s.kid m _ k' r h1 e2
      refine ⟨a, by omega, ?_⟩
      rw [if_neg (Nat.ne_of_lt b), if_neg (Nat.ne_of_lt hm)]; exact d
  · intro m c x e e2
    rcases get_grow e with ⟨_, rfl⟩ | ⟨hm, c0, h1, ⟨_, rfl⟩ | ⟨_, rfl⟩⟩
    · cases e2
    · rw [if_neg (Nat.ne_of_lt hm)]; exact s.data m c0 x h1 e2
    · rw [if_neg (Nat.ne_of_lt hm)]; exact s.data m _ x h1 e2
  · intro m c e e2
    rcases get_grow e with ⟨_, rfl⟩ | ⟨_, c0, h1, ⟨_, rfl⟩ | ⟨_, rfl⟩⟩
    · cases e2
    · exact s.mark m c0 h1 e2
    · exact s.mark m _ h1 e2

theorem Shape.saved {keys : T → List Val} {h : Heap T} {path : Nat → List Val} (s : Shape keys h path)
    {n : Nat} {x : T} (hx : path n = key keys x) (hm : ∀ c : Cell T, h[n]? = some c → c.isEnd = true) :
    Shape keys (h.edit n (fun c => { c with data := some x })) path := by
  have g : ∀ (m : Nat) (c : Cell T), (h.edit n (fun c => { c with data := some x }))[m]? = some c →
      ∃ c0 : Cell T, h[m]? = some c0 ∧ c.child = c0.child ∧ c.isEnd = c0.isEnd ∧
        ((n = m ∧ c.data = some x) ∨ c.data = c0.data) := by
    intro m c e
    rw [get_edit] at e
    split at e
    · rename_i hn
      rw [Option.map_eq_some_iff] at e
      obtain ⟨c0, h1, h2⟩ := e
      subst h2
      exact ⟨c0, h1, rfl, rfl, Or.inl ⟨hn, rfl⟩⟩
    · exact ⟨c, e, rfl, rfl, Or.inr rfl⟩
  refine ⟨by rw [length_edit]; exact s.pos, s.root, ?_, ?_, ?_, ?_⟩
  · intro m c e
    obtain ⟨c0, h1, h2, _⟩ := g m c e
    rw [h2]; exact s.wf m c0 h1
  · intro m c k r e e2
    obtain ⟨c0, h1, h2, _⟩ := g m c e
    rw [h2] at e2
    rw [length_edit]; exact s.kid m c0 k r h1 e2
  · intro m c y e e2
    obtain ⟨c0, h1, _, _, ⟨rfl, h3⟩ | h3⟩ := g m c e
    · rw [h3] at e2; cases e2; exact hx.symm
    · rw [h3] at e2; exact s.data m c0 y h1 e2
  · intro m c e e2
    obtain ⟨c0, h1, _, h4, ⟨rfl, _⟩ | h3⟩ := g m c e
    · rw [h4]; exact hm c0 h1
    · rw [h3] at e2; rw [h4]; exact s.mark m c0 h1 e2

/-- The nodes of `h0` are still there with their edges, and no other edge leads to them. -/
structure Since (h0 h : Heap T) : Prop where
  len : h0.length ≤ h.length
  keep : ∀ (n : Nat) (c0 : Cell T) (k : Val) (m : Nat), h0[n]? = some c0 → c0.child.get k = some m →
    ∃ c : Cell T, h[n]? = some c ∧ c.child.get k = some m
  old : ∀ (n : Nat) (c : Cell T) (k : Val) (m : Nat), h[n]? = some c → c.child.get k = some m → m < h0.length →
    ∃ c0 : Cell T, h0[n]? = some c0 ∧ c0.child.get k = some m

theorem Since.refl (h : Heap T) : Since h h :=
  ⟨Nat.le_refl _, fun _ c0 _ _ e e2 => ⟨c0, e, e2⟩, fun _ c _ _ e e2 _ => ⟨c, e, e2⟩⟩

theorem Since.edit {h0 h : Heap T} (s : Since h0 h) {n : Nat} {f : Cell T → Cell T}
    (hf : ∀ c, (f c).child = c.child) : Since h0 (h.edit n f) := by
  refine ⟨by rw [length_edit]; exact s.len, ?_, ?_⟩
  · intro m c0 k r e e2
    obtain ⟨c, h1, h2⟩ := s.keep m c0 k r e e2
    rw [get_edit, h1]
    split
    · exact ⟨f c, rfl, by rw [hf]; exact h2⟩
    · exact ⟨c, rfl, h2⟩
  · intro m c k r e e2 hr
    rw [get_edit] at e
    split at e
    · rw [Option.map_eq_some_iff] at e
      obtain ⟨c1, h1, rfl⟩ := e
      rw [hf] at e2
      exact s.old m c1 k r h1 e2 hr
    · exact s.old m c k r e e2 hr

theorem Since.grown {h0 h : Heap T} (s : Since h0 h) {n : Nat} {k : Val}
    (hn : ∀ c0 : Cell T, h0[n]? = some c0 → c0.child.get k = none) : Since h0 (h.grow n k) := by
  have hl := s.len
  refine ⟨by rw [length_grow]; omega, ?_, ?_⟩
  · intro m c0 k' r e e2
    obtain ⟨c, h1, h2⟩ := s.keep m c0 k' r e e2
    rw [grow_get h1]
    refine ⟨_, rfl, ?_⟩
    split
    · rename_i hnm
      subst hnm
      simp only [GoMap.get_set]
      rw [if_neg]
      · exact h2
      · rintro rfl
        rw [hn c0 e] at e2; cases e2
    · exact h2
  · intro m c k' r e e2 hr
    rcases get_grow e with ⟨_, rfl⟩ | ⟨hm, c0, h1, ⟨rfl, rfl⟩ | ⟨_, rfl⟩⟩
    · cases e2
    · simp only [GoMap.get_set] at e2
      split at e2
      · cases e2; omega
      · exact s.old n c0 k' r h1 e2 hr
    · exact s.old m _ k' r h1 e2 hr

/-! ## Walks -/

theorem walk_path {keys : T → List Val} {h : Heap T} {path : Nat → List Val} (s : Shape keys h path) :
    ∀ (p : List Val) (n m : Nat), h.walk p n = some m → path m = path n ++ p := by
  intro p
  induction p with
  | nil => intro n m e; simp only [Heap.walk, Option.some.injEq] at e; subst e; simp
  | cons k ks ih =>
    intro n m e
    simp only [Heap.walk] at e
    split at e
    · cases e
    · rename_i c hc
      split at e
      · cases e
      · rename_i r hr
        have := ih r m e
        rw [(s.kid n c k r hc hr).2.2] at this
        simpa using this

theorem walk_lt {keys : T → List Val} {h : Heap T} {path : Nat → List Val} (s : Shape keys h path) :
    ∀ (p : List Val) (n m : Nat), n < h.length → h.walk p n = some m → m < h.length := by
  intro p
  induction p with
  | nil => intro n m hn e; simp only [Heap.walk, Option.some.injEq] at e; omega
  | cons k ks ih =>
    intro n m hn e
    simp only [Heap.walk] at e
    split at e
    · cases e
    · rename_i c hc
      split at e
      · cases e
      · rename_i r hr
        exact ih r m (s.kid n c k r hc hr).2.1 e

theorem walk_append (h : Heap T) (q : List Val) : ∀ (p : List Val) (n : Nat),
    h.walk (p ++ q) n = (h.walk p n).bind (h.walk q) := by
  intro p
  induction p with
  | nil => intro n; rfl
  | cons k ks ih =>
    intro n
    simp only [List.cons_append, Heap.walk]
    split
    · rfl
    · split
      · rfl
      · exact ih _

theorem walk_one {h : Heap T} {n : Nat} {c : Cell T} (hc : h[n]? = some c) (k : Val) :
    h.walk [k] n = c.child.get k := by
  simp only [Heap.walk, hc]
  cases c.child.get k <;> rfl

theorem Since.walk {h0 h : Heap T} (s : Since h0 h) : ∀ (p : List Val) (n m : Nat),
    h0.walk p n = some m → h.walk p n = some m := by
  intro p
  induction p with
  | nil => intro n m e; exact e
  | cons k ks ih =>
    intro n m e
    simp only [Heap.walk] at e
    split at e
    · cases e
    · rename_i c hc
      split at e
      · cases e
      · rename_i r hr
        obtain ⟨c', h1, h2⟩ := s.keep n c k r hc hr
        simp only [Heap.walk, h1, h2]
        exact ih r m e

theorem Since.back {h0 h : Heap T} (s : Since h0 h) : ∀ (p : List Val) (n m : Nat),
    h.walk p n = some m → m < h0.length → n < h0.length ∧ h0.walk p n = some m := by
  intro p
  induction p with
  | nil => intro n m e hm; simp only [Heap.walk, Option.some.injEq] at e; subst e; exact ⟨hm, rfl⟩
  | cons k ks ih =>
    intro n m e hm
    simp only [Heap.walk] at e
    split at e
    · cases e
    · rename_i c hc
      split at e
      · cases e
      · rename_i r hr
        obtain ⟨h1, h2⟩ := ih r m e hm
        obtain ⟨c0, h3, h4⟩ := s.old n c k r hc hr h1
        refine ⟨lt_of_get h3, ?_⟩
        simp only [Heap.walk, h3, h4]
        exact h2

/-- An edit that leaves the child maps alone does not change walks. -/
theorem walk_edit {h : Heap T} {n : Nat} {f : Cell T → Cell T} (hf : ∀ c, (f c).child = c.child) :
    ∀ (p : List Val) (m : Nat), (h.edit n f).walk p m = h.walk p m := by
  intro p
  induction p with
  | nil => intro m; rfl
  | cons k ks ih =>
    intro m
    simp only [Heap.walk, get_edit]
    cases hc : h[m]? with
    | none => by_cases hn : n = m <;> simp [hn]
    | some c =>
      by_cases hn : n = m
      · simp only [hn, if_true, Option.map_some, hf]
        cases c.child.get k with
        | none => rfl
        | some r => rw [← hn]; exact ih r
      · simp only [hn, if_false]
        cases c.child.get k with
        | none => rfl
        | some r => exact ih r

/-! ## One step -/

theorem step_cases {h h' : Heap T} {s : Spot T} {nx : Next T} (e : s.step h = some (h', nx)) :
    (h' = h ∧ (∀ x n, s ≠ .save x n) ∧ (∀ x n, nx ≠ .at (.save x n)) ∧
      ∀ x n k ks, s ≠ .make x n k ks) ∨
    (∃ x n, s = .down x n [] ∧ h' = h.edit n (fun c => { c with isEnd := true }) ∧ nx = .at (.save x n)) ∨
    (∃ x n k ks, s = .make x n k ks ∧ h' = h.grow n k ∧ nx = .at (.down x h.length ks)) ∨
    (∃ x n, s = .save x n ∧ h' = h.edit n (fun c => { c with data := some x }) ∧ nx = .ret []) := by
  cases s with
  | down x n ks =>
    cases ks with
    | nil => cases e; exact Or.inr (Or.inl ⟨x, n, rfl, rfl, rfl⟩)
    | cons k ks =>
      left
      simp only [Spot.step] at e
      split at e
      · cases e; exact ⟨rfl, nofun, nofun, nofun⟩
      · split at e
        · cases e
        · split at e <;> (cases e; exact ⟨rfl, nofun, nofun, nofun⟩)
  | make x n k ks => cases e; exact Or.inr (Or.inr (Or.inl ⟨x, n, k, ks, rfl, rfl, rfl⟩))
  | save x n => cases e; exact Or.inr (Or.inr (Or.inr ⟨x, n, rfl, rfl, rfl⟩))
  | enter q todo res =>
    left
    cases todo with
    | nil => cases e; exact ⟨rfl, nofun, nofun, nofun⟩
    | cons n todo =>
      simp only [Spot.step] at e
      split at e
      · cases e
      · cases e; exact ⟨rfl, nofun, (fun x n h => by injection h with h; split at h <;> cases h), nofun⟩
  | test q n todo res =>
    left
    simp only [Spot.step] at e
    split at e
    · cases e
    · split at e <;> first | (cases e; exact ⟨rfl, nofun, nofun, nofun⟩) | cases e
  | take q n todo res =>
    left
    simp only [Spot.step] at e
    split at e
    · cases e
    · split at e <;> (cases e; exact ⟨rfl, nofun, nofun, nofun⟩)
  | spread q n todo res =>
    left
    simp only [Spot.step] at e
    split at e
    · cases e
    · cases e; exact ⟨rfl, nofun, nofun, nofun⟩
  | dead => cases e

/-! ## The invariant -/

/-- Identities of the rows found. -/
def found (keys : T → List Val) (res : List (Option T)) : List (List Val) :=
  (res.filterMap id).map (key keys)

theorem found_snoc_none (keys : T → List Val) (res : List (Option T)) :
    found keys (res ++ [none]) = found keys res := by simp [found]

theorem found_snoc_some (keys : T → List Val) (res : List (Option T)) (x : T) :
    found keys (res ++ [some x]) = found keys res ++ [key keys x] := by simp [found]

/-- A node of `h0` that is in the tree of `h0`. -/
def Seen (h0 : Heap T) (n : Nat) : Prop := n < h0.length → ∃ p, h0.walk p 0 = some n

/-- Neither node is below the other. -/
def Split (path : Nat → List Val) (a b : Nat) : Prop := ¬ path a <+: path b ∧ ¬ path b <+: path a

/-- A row that was there at the beginning, or one of the rows `B`. -/
def Known (h0 : Heap T) (B : T → Prop) (x : T) : Prop := (∃ p, h0.row p = some x) ∨ B x

/-- What holds of a search that has still to visit `front`. -/
structure Seek (keys : T → List Val) (h0 h : Heap T) (path : Nat → List Val) (B : T → Prop)
    (front : List Nat) (res : List (Option T)) : Prop where
  seen : ∀ n ∈ front, n < h.length ∧ Seen h0 n
  apart : front.Pairwise (Split path)
  new : ∀ n ∈ front, ∀ p ∈ found keys res, ¬ path n <+: p
  nodup : (found keys res).Nodup
  known : ∀ x, some x ∈ res → Known h0 B x

/-- A node that is marked. -/
def Marked (h : Heap T) (n : Nat) : Prop := ∃ c : Cell T, h[n]? = some c ∧ c.isEnd = true

/-- What holds of a goroutine inside a call. -/
def SpotOk (keys : T → List Val) (h0 h : Heap T) (path : Nat → List Val) (B : T → Prop) (call : Call T) :
    Spot T → Prop
  | .down x n ks => call = .insert x ∧ n < h.length ∧ path n ++ strip ks = key keys x
  | .make x n k ks => call = .insert x ∧ n < h.length ∧ k ≠ .nil ∧
      path n ++ k :: strip ks = key keys x ∧ ∀ c0 : Cell T, h0[n]? = some c0 → c0.child.get k = none
  | .save x n => call = .insert x ∧ n < h.length ∧ path n = key keys x ∧ Marked h n
  | .enter q todo res => call = .search q ∧ Seek keys h0 h path B todo res
  | .test q n todo res => call = .search q ∧ Seek keys h0 h path B (n :: todo) res ∧ Marked h n
  | .take q n todo res => call = .search q ∧ Seek keys h0 h path B (n :: todo) res ∧ Marked h n
  | .spread q n todo res => call = .search q ∧ Seek keys h0 h path B todo res ∧
      (n < h.length ∧ Seen h0 n) ∧ (∀ m ∈ todo, Split path n m) ∧
      ∀ p ∈ found keys res, ∀ k, ¬ path n ++ [k] <+: p
  | .dead => ∃ q, call = .search q

/-- Nodes are only added, and marks and rows only set. -/
structure Later (h : Heap T) (path : Nat → List Val) (h' : Heap T) (path' : Nat → List Val) : Prop where
  len : h.length ≤ h'.length
  path : ∀ n, n < h.length → path' n = path n
  cell : ∀ (n : Nat) (c : Cell T), h[n]? = some c → ∃ c' : Cell T, h'[n]? = some c' ∧
    (c.isEnd = true → c'.isEnd = true) ∧ (c.data.isSome → c'.data.isSome)

theorem Later.refl (h : Heap T) (path : Nat → List Val) : Later h path h path :=
  ⟨Nat.le_refl _, fun _ _ => rfl, fun _ c e => ⟨c, e, id, id⟩⟩

theorem Later.edit {h : Heap T} {path : Nat → List Val} {n : Nat} {f : Cell T → Cell T}
    (hf : ∀ c, (c.isEnd = true → (f c).isEnd = true) ∧ (c.data.isSome → (f c).data.isSome)) :
    Later h path (h.edit n f) path := by
  refine ⟨by rw [length_edit]; exact Nat.le_refl _, fun _ _ => rfl, ?_⟩
  intro m c e
  rw [get_edit, e]
  split
  · exact ⟨f c, rfl, hf c⟩
  · exact ⟨c, rfl, id, id⟩

theorem Later.grown {h : Heap T} {path : Nat → List Val} {n : Nat} {k : Val} :
    Later h path (h.grow n k) (fun m => if m = h.length then path n ++ [k] else path m) := by
  refine ⟨by rw [length_grow]; omega, fun m hm => by rw [if_neg (Nat.ne_of_lt hm)], ?_⟩
  intro m c e
  rw [grow_get e]
  refine ⟨_, rfl, ?_⟩
  split <;> exact ⟨id, id⟩

theorem Later.marked {h h' : Heap T} {path path' : Nat → List Val} (l : Later h path h' path') {n : Nat}
    (m : Marked h n) : Marked h' n := by
  obtain ⟨c, h1, h2⟩ := m
  obtain ⟨c', h3, h4, _⟩ := l.cell n c h1
  exact ⟨c', h3, h4 h2⟩

theorem Later.split {h h' : Heap T} {path path' : Nat → List Val} (l : Later h path h' path') {a b : Nat}
    (ha : a < h.length) (hb : b < h.length) (s : Split path a b) : Split path' a b := by
  unfold Split
  rw [l.path a ha, l.path b hb]
  exact s

theorem Known.mono {h0 : Heap T} {B B' : T → Prop} (hB : ∀ x, B x → B' x) {x : T} (k : Known h0 B x) :
    Known h0 B' x := k.imp id (hB x)

theorem Seek.later {keys : T → List Val} {h0 h h' : Heap T} {path path' : Nat → List Val} {B B' : T → Prop}
    (l : Later h path h' path') (hB : ∀ x, B x → B' x) {front : List Nat} {res : List (Option T)}
    (s : Seek keys h0 h path B front res) : Seek keys h0 h' path' B' front res where
  seen n hn := ⟨Nat.lt_of_lt_of_le (s.seen n hn).1 l.len, (s.seen n hn).2⟩
  apart := by
    refine List.Pairwise.imp_of_mem ?_ s.apart
    intro a b ha hb hs
    exact l.split (s.seen a ha).1 (s.seen b hb).1 hs
  new n hn := by rw [l.path n (s.seen n hn).1]; exact s.new n hn
  nodup := s.nodup
  known x hx := (s.known x hx).mono hB

/-- What holds of a goroutine stays true while others move. -/
theorem SpotOk.later {keys : T → List Val} {h0 h h' : Heap T} {path path' : Nat → List Val} {B B' : T → Prop}
    (l : Later h path h' path') (hB : ∀ x, B x → B' x) {call : Call T} {s : Spot T}
    (o : SpotOk keys h0 h path B call s) : SpotOk keys h0 h' path' B' call s := by
  cases s with
  | down x n ks =>
    obtain ⟨a, b, d⟩ := o
    exact ⟨a, Nat.lt_of_lt_of_le b l.len, by rw [l.path n b]; exact d⟩
  | make x n k ks =>
    obtain ⟨a, b, d, e, f⟩ := o
    exact ⟨a, Nat.lt_of_lt_of_le b l.len, d, by rw [l.path n b]; exact e, f⟩
  | save x n =>
    obtain ⟨a, b, d, e⟩ := o
    exact ⟨a, Nat.lt_of_lt_of_le b l.len, by rw [l.path n b]; exact d, l.marked e⟩
  | enter q todo res => exact ⟨o.1, o.2.later l hB⟩
  | test q n todo res => exact ⟨o.1, o.2.1.later l hB, l.marked o.2.2⟩
  | take q n todo res => exact ⟨o.1, o.2.1.later l hB, l.marked o.2.2⟩
  | spread q n todo res =>
    obtain ⟨a, b, ⟨d1, d2⟩, e, f⟩ := o
    refine ⟨a, b.later l hB, ⟨Nat.lt_of_lt_of_le d1 l.len, d2⟩, ?_, ?_⟩
    · intro m hm; exact l.split d1 (b.seen m hm).1 (e m hm)
    · rw [l.path n d1]; exact f
  | dead => exact o

/-- Where the rows in the heap come from. -/
def From (h0 h : Heap T) (B : T → Prop) : Prop :=
  ∀ (n : Nat) (c : Cell T) (x : T), h[n]? = some c → c.data = some x →
    (∃ c0 : Cell T, h0[n]? = some c0 ∧ c0.data = some x) ∨ B x

/-- What holds after a step of a call. -/
def NextOk (keys : T → List Val) (h0 h : Heap T) (path : Nat → List Val) (B : T → Prop) (call : Call T) :
    Next T → Prop
  | .at s => SpotOk keys h0 h path B call s
  | .ret res => (∀ x, some x ∈ res → Known h0 B x) ∧ (found keys res).Nodup

theorem From.known {h0 h : Heap T} {B : T → Prop} (f : From h0 h B) {n : Nat} {c : Cell T} {x : T}
    (hc : h[n]? = some c) (hx : c.data = some x) (hs : Seen h0 n) : Known h0 B x := by
  rcases f n c x hc hx with ⟨c0, h1, h2⟩ | hb
  · obtain ⟨p, hp⟩ := hs (lt_of_get h1)
    refine Or.inl ⟨p, ?_⟩
    simp only [Heap.row, hp, Option.bind_some, h1, h2]
  · exact Or.inr hb

/-- A search that has taken the row of the node it is at. -/
theorem Seek.take {keys : T → List Val} {h0 h : Heap T} {path : Nat → List Val} {B : T → Prop}
    (sh : Shape keys h path) (fr : From h0 h B) {n : Nat} {todo : List Nat} {res : List (Option T)}
    (s : Seek keys h0 h path B (n :: todo) res) {c : Cell T} (hc : h[n]? = some c) :
    Seek keys h0 h path B todo (res ++ [c.data]) ∧
      (∀ p ∈ found keys (res ++ [c.data]), ∀ k, ¬ path n ++ [k] <+: p) := by
  have hap := List.pairwise_cons.1 s.apart
  have hnew := s.new n List.mem_cons_self
  cases hd : c.data with
  | none =>
    refine ⟨⟨fun m hm => s.seen m (List.mem_cons_of_mem _ hm), hap.2, ?_, ?_, ?_⟩, ?_⟩
    · rw [found_snoc_none]; exact fun m hm => s.new m (List.mem_cons_of_mem _ hm)
    · rw [found_snoc_none]; exact s.nodup
    · intro x hx
      rcases List.mem_append.1 hx with hx | hx
      · exact s.known x hx
      · simp at hx
    · rw [found_snoc_none]
      exact fun p hp k hpre => hnew p hp ((List.prefix_append _ _).trans hpre)
  | some x =>
    have hk : key keys x = path n := sh.data n c x hc hd
    refine ⟨⟨fun m hm => s.seen m (List.mem_cons_of_mem _ hm), hap.2, ?_, ?_, ?_⟩, ?_⟩
    · rw [found_snoc_some]
      intro m hm p hp
      rcases List.mem_append.1 hp with hp | hp
      · exact s.new m (List.mem_cons_of_mem _ hm) p hp
      · rw [List.mem_singleton] at hp
        rw [hp, hk]
        exact (hap.1 m hm).2
    · rw [found_snoc_some, List.nodup_append]
      refine ⟨s.nodup, by simp, ?_⟩
      intro a ha b hb e
      rw [List.mem_singleton] at hb
      subst hb; subst e
      exact hnew _ ha (hk ▸ List.prefix_refl _)
    · intro y hy
      rcases List.mem_append.1 hy with hy | hy
      · exact s.known y hy
      · rw [List.mem_singleton] at hy
        cases hy
        exact fr.known hc hd (s.seen n List.mem_cons_self).2
    · rw [found_snoc_some]
      intro p hp k hpre
      rcases List.mem_append.1 hp with hp | hp
      · exact hnew p hp ((List.prefix_append _ _).trans hpre)
      · rw [List.mem_singleton] at hp
        rw [hp, hk] at hpre
        have := hpre.length_le
        simp at this
        omega

/-- A search that does not take the row of the node it is at. -/
theorem Seek.skip {keys : T → List Val} {h0 h : Heap T} {path : Nat → List Val} {B : T → Prop}
    {n : Nat} {todo : List Nat} {res : List (Option T)}
    (s : Seek keys h0 h path B (n :: todo) res) :
    Seek keys h0 h path B todo res ∧ (n < h.length ∧ Seen h0 n) ∧ (∀ m ∈ todo, Split path n m) ∧
      (∀ p ∈ found keys res, ∀ k, ¬ path n ++ [k] <+: p) := by
  have hap := List.pairwise_cons.1 s.apart
  refine ⟨⟨fun m hm => s.seen m (List.mem_cons_of_mem _ hm), hap.2,
    fun m hm => s.new m (List.mem_cons_of_mem _ hm), s.nodup, s.known⟩,
    s.seen n List.mem_cons_self, hap.1, ?_⟩
  exact fun p hp k hpre => s.new n List.mem_cons_self p hp ((List.prefix_append _ _).trans hpre)

theorem mem_vals {c : Cell T} {m : Nat} (h : m ∈ c.child.map (·.2)) (wf : c.child.WF) :
    ∃ k, c.child.get k = some m := by
  obtain ⟨⟨k, v⟩, hm, rfl⟩ := List.mem_map.1 h
  exact ⟨k, (GoMap.mem_iff_get wf).1 hm⟩

/-- The children of one node are beside each other. -/
theorem kids_split {keys : T → List Val} {h : Heap T} {path : Nat → List Val} (sh : Shape keys h path)
    {n : Nat} {c : Cell T} (hc : h[n]? = some c) : (c.child.map (·.2)).Pairwise (Split path) := by
  rw [List.pairwise_map]
  have hw : (c.child.map (·.1)).Nodup := sh.wf n c hc
  have hw' := List.pairwise_map.1 hw
  refine List.Pairwise.imp_of_mem ?_ hw'
  rintro ⟨k, a⟩ ⟨k', b⟩ ha hb hne
  have e1 := (sh.kid n c k a hc ((GoMap.mem_iff_get (sh.wf n c hc)).1 ha)).2.2
  have e2 := (sh.kid n c k' b hc ((GoMap.mem_iff_get (sh.wf n c hc)).1 hb)).2.2
  unfold Split
  simp only [e1, e2]
  constructor
  · intro hp
    have := hp.eq_of_length (by simp)
    simp at this
    exact hne this
  · intro hp
    have := hp.eq_of_length (by simp)
    simp at this
    exact hne this.symm

theorem split_symm {path : Nat → List Val} {a b : Nat} (h : Split path a b) : Split path b a := ⟨h.2, h.1⟩

/-- A step of a call keeps what holds of the heap and of this goroutine. -/
theorem spot_step {keys : T → List Val} {h0 h h' : Heap T} {path : Nat → List Val} {B : T → Prop}
    (sh : Shape keys h path) (si : Since h0 h) (fr : From h0 h B) {call : Call T} {s : Spot T} {nx : Next T}
    (hB : ∀ x, call = .insert x → B x)
    (o : SpotOk keys h0 h path B call s) (e : s.step h = some (h', nx)) :
    ∃ path', Shape keys h' path' ∧ Since h0 h' ∧ From h0 h' B ∧ Later h path h' path' ∧
      NextOk keys h0 h' path' B call nx := by
  cases s with
  | down x n ks =>
    obtain ⟨a, b, d⟩ := o
    cases ks with
    | nil =>
      cases e
      have l : Later h path (h.edit n (fun c => { c with isEnd := true })) path :=
        Later.edit (fun c => ⟨fun _ => rfl, id⟩)
      refine ⟨path, sh.marked n, si.edit (fun _ => rfl), ?_, l, a, ?_, ?_, ?_⟩
      · intro m c y e1 e2
        rw [get_edit] at e1
        split at e1
        · rw [Option.map_eq_some_iff] at e1
          obtain ⟨c0, h1, rfl⟩ := e1
          exact fr m c0 y h1 e2
        · exact fr m c y e1 e2
      · rw [length_edit]; exact b
      · simpa [strip] using d
      · obtain ⟨c, hc⟩ := get_of_lt b
        exact ⟨{ c with isEnd := true }, by rw [get_edit, if_pos rfl, hc]; rfl, rfl⟩
    | cons k ks =>
      simp only [Spot.step] at e
      split at e
      · rename_i hk
        cases e
        refine ⟨path, sh, si, fr, Later.refl _ _, a, b, ?_⟩
        rw [← d]; simp [strip, hk]
      · rename_i hk
        have hs : strip (k :: ks) = k :: strip ks := by simp [strip, hk]
        rw [hs] at d
        split at e
        · cases e
        · rename_i c hc
          split at e
          · rename_i m hm
            cases e
            obtain ⟨_, h2, h3⟩ := sh.kid n c k m hc hm
            exact ⟨path, sh, si, fr, Later.refl _ _, a, h2, by rw [h3, ← d]; simp⟩
          · rename_i hm
            cases e
            refine ⟨path, sh, si, fr, Later.refl _ _, a, b, hk, d, ?_⟩
            intro c0 h1
            cases hg : c0.child.get k with
            | none => rfl
            | some m =>
              obtain ⟨c', h3, h4⟩ := si.keep n c0 k m h1 hg
              rw [hc] at h3; cases h3
              rw [hm] at h4; cases h4
  | make x n k ks =>
    obtain ⟨a, b, hk, d, f⟩ := o
    cases e
    refine ⟨_, sh.grown hk, si.grown f, ?_, Later.grown (n := n) (k := k), a, ?_, ?_⟩
    · intro m c y e1 e2
      rcases get_grow e1 with ⟨_, rfl⟩ | ⟨_, c0, h1, ⟨_, rfl⟩ | ⟨_, rfl⟩⟩
      · cases e2
      · exact fr m c0 y h1 e2
      · exact fr m _ y h1 e2
    · exact (by rw [length_grow]; omega : h.length < (h.grow n k).length)
    · rw [← d]; simp
  | save x n =>
    obtain ⟨a, b, d, m⟩ := o
    cases e
    refine ⟨path, sh.saved d ?_, si.edit (fun _ => rfl), ?_, ?_, ?_, ?_⟩
    · intro c hc
      obtain ⟨c', h1, h2⟩ := m
      rw [hc] at h1; cases h1; exact h2
    · intro m c y e1 e2
      rw [get_edit] at e1
      split at e1
      · rw [Option.map_eq_some_iff] at e1
        obtain ⟨c0, h1, rfl⟩ := e1
        cases e2
        exact Or.inr (hB x a)
      · exact fr m c y e1 e2
    · exact Later.edit (fun c => ⟨id, fun _ => rfl⟩)
    · intro y hy; cases hy
    · exact List.nodup_nil
  | enter q todo res =>
    obtain ⟨a, s⟩ := o
    cases todo with
    | nil =>
      cases e
      exact ⟨path, sh, si, fr, Later.refl _ _, s.known, s.nodup⟩
    | cons n todo =>
      simp only [Spot.step] at e
      split at e
      · cases e
      · rename_i c hc
        cases e
        refine ⟨path, sh, si, fr, Later.refl _ _, ?_⟩
        simp only [NextOk]
        split
        · rename_i hm
          exact ⟨a, s, c, hc, hm⟩
        · exact ⟨a, s.skip⟩
  | test q n todo res =>
    obtain ⟨a, s, m⟩ := o
    simp only [Spot.step] at e
    split at e
    · cases e
    · rename_i c hc
      split at e
      · cases e; exact ⟨path, sh, si, fr, Later.refl _ _, a, s, m⟩
      · cases e; exact ⟨path, sh, si, fr, Later.refl _ _, a, s.skip⟩
      · cases e; exact ⟨path, sh, si, fr, Later.refl _ _, q, a⟩
      · cases e
  | take q n todo res =>
    obtain ⟨a, s, m⟩ := o
    simp only [Spot.step] at e
    split at e
    · cases e
    · rename_i c hc
      have ht := s.take sh fr hc
      split at e
      · cases e; exact ⟨path, sh, si, fr, Later.refl _ _, ht.1.known, ht.1.nodup⟩
      · cases e
        exact ⟨path, sh, si, fr, Later.refl _ _, a, ht.1, s.seen n List.mem_cons_self,
          (List.pairwise_cons.1 s.apart).1, ht.2⟩
  | spread q n todo res =>
    obtain ⟨a, s, ⟨h1, h2⟩, h3, h4⟩ := o
    simp only [Spot.step] at e
    split at e
    · cases e
    · rename_i c hc
      cases e
      refine ⟨path, sh, si, fr, Later.refl _ _, a, ?_, ?_, ?_, s.nodup, s.known⟩
      · intro m hm
        rcases List.mem_append.1 hm with hm | hm
        · rw [Ord.mem_ord] at hm
          obtain ⟨k, hk⟩ := mem_vals hm (sh.wf n c hc)
          refine ⟨(sh.kid n c k m hc hk).2.1, ?_⟩
          intro hm0
          obtain ⟨c0, h5, h6⟩ := si.old n c k m hc hk hm0
          obtain ⟨p, hp⟩ := h2 (lt_of_get h5)
          refine ⟨p ++ [k], ?_⟩
          rw [walk_append, hp, Option.bind_some, walk_one h5, h6]
        · exact s.seen m hm
      · rw [List.pairwise_append]
        refine ⟨?_, s.apart, ?_⟩
        · exact (List.Perm.pairwise_iff (fun {a b} => split_symm) (q.ord.perm _ _ _)).2 (kids_split sh hc)
        · intro m hm r hr
          rw [Ord.mem_ord] at hm
          obtain ⟨k, hk⟩ := mem_vals hm (sh.wf n c hc)
          have hp := (sh.kid n c k m hc hk).2.2
          have hs := h3 r hr
          refine ⟨?_, ?_⟩
          · rw [hp]
            exact fun hpre => hs.1 ((List.prefix_append _ _).trans hpre)
          · rw [hp]
            intro hpre
            rcases List.prefix_concat_iff.1 hpre with he | he
            · exact hs.1 (he ▸ List.prefix_append _ _)
            · exact hs.2 he
      · intro m hm p hp
        rcases List.mem_append.1 hm with hm | hm
        · rw [Ord.mem_ord] at hm
          obtain ⟨k, hk⟩ := mem_vals hm (sh.wf n c hc)
          rw [(sh.kid n c k m hc hk).2.2]
          exact h4 p hp k
        · exact s.new m hm p hp
  | dead => cases e

/-! ## Runs -/

/-- The rows `x` of `h0` with no insertion of their identity are where they were. -/
def Kept (keys : T → List Val) (h0 h : Heap T) (B : T → Prop) : Prop :=
  ∀ (n : Nat) (c0 : Cell T) (x : T), h0[n]? = some c0 → c0.data = some x →
    (∀ y, B y → key keys y ≠ key keys x) → ∃ c : Cell T, h[n]? = some c ∧ c.data = some x

structure Inv (keys : T → List Val) (h0 : Heap T) (c : Conf T) (path : Nat → List Val) : Prop where
  shape : Shape keys c.heap path
  since : Since h0 c.heap
  origin : From h0 c.heap c.Begun
  kept : Kept keys h0 c.heap c.Begun
  spot : ∀ t ∈ c.ts, ∀ call s, t.cur = some (call, s) → SpotOk keys h0 c.heap path c.Begun call s
  out : ∀ t ∈ c.ts, ∀ e ∈ t.out, (∀ x, some x ∈ e.2 → Known h0 c.Begun x) ∧ (found keys e.2).Nodup

/-- The three kinds of steps of a configuration. -/
theorem conf_step {keys : T → List Val} {c c' : Conf T} {i : Nat} (e : c.step keys i = some c') :
    ∃ t t', c.ts[i]? = some t ∧ c'.ts = c.ts.set i t' ∧
      ((∃ call rest, t.cur = none ∧ t.todo = call :: rest ∧ c'.heap = c.heap ∧
          t' = { t with cur := some (call, call.first keys), todo := rest }) ∨
       (∃ call s s', t.cur = some (call, s) ∧ s.step c.heap = some (c'.heap, .at s') ∧
          t' = { t with cur := some (call, s') }) ∨
       (∃ call s res, t.cur = some (call, s) ∧ s.step c.heap = some (c'.heap, .ret res) ∧
          t' = { t with cur := none, out := t.out ++ [(call, res)] })) := by
  unfold Conf.step at e
  split at e
  · cases e
  · rename_i t ht
    refine ⟨t, ?_⟩
    split at e
    · rename_i hc
      split at e
      · cases e
      · rename_i call rest hr
        cases e
        exact ⟨_, ht, rfl, Or.inl ⟨call, rest, hc, hr, rfl, rfl⟩⟩
    · rename_i call s hc
      split at e
      · cases e
      · rename_i h s' hs
        cases e
        exact ⟨_, ht, rfl, Or.inr (Or.inl ⟨call, s, s', hc, hs, rfl⟩)⟩
      · rename_i h res hs
        cases e
        exact ⟨_, ht, rfl, Or.inr (Or.inr ⟨call, s, res, hc, hs, rfl⟩)⟩

theorem mem_set_ts {ts : List (Thread T)} {i : Nat} {t' u : Thread T} (h : u ∈ ts.set i t') :
    u = t' ∨ u ∈ ts := by
  rcases List.mem_or_eq_of_mem_set h with h | h
  · exact Or.inr h
  · exact Or.inl h

theorem begun_mono {keys : T → List Val} {c c' : Conf T} {i : Nat} (e : c.step keys i = some c') {x : T}
    (h : c.Begun x) : c'.Begun x := by
  obtain ⟨u, hu, hx⟩ := h
  obtain ⟨t, t', ht, hts, hk⟩ := conf_step e
  by_cases hut : u = t
  · subst hut
    have hm : t' ∈ c'.ts := by
      rw [hts]; exact List.mem_set (List.getElem?_eq_some_iff.1 ht).1 t'
    refine ⟨t', hm, ?_⟩
    rcases hk with ⟨call, rest, h1, _, _, rfl⟩ | ⟨call, s, s', h1, _, rfl⟩ | ⟨call, s, res, h1, _, rfl⟩
    · simp only [Thread.begun, h1] at hx ⊢
      simp only [Option.toList_none, List.map_nil, List.append_nil] at hx
      exact List.mem_append_left _ hx
    · simpa only [Thread.begun, h1, Option.toList_some, List.map_cons, List.map_nil] using hx
    · simp only [Thread.begun, h1] at hx ⊢
      simpa using hx
  · refine ⟨u, ?_, hx⟩
    rw [hts]
    obtain ⟨j, hj⟩ := List.getElem?_of_mem hu
    have hij : i ≠ j := by
      rintro rfl
      rw [ht] at hj; cases hj; exact hut rfl
    exact List.mem_of_getElem? (i := j) (by rw [List.getElem?_set_ne hij]; exact hj)

theorem inv_step {keys : T → List Val} {h0 : Heap T} {c c' : Conf T} {path : Nat → List Val} {i : Nat}
    (v : Inv keys h0 c path) (e : c.step keys i = some c') :
    ∃ path', Inv keys h0 c' path' ∧ Later c.heap path c'.heap path' := by
  have hbm : ∀ x, c.Begun x → c'.Begun x := fun x => begun_mono e
  obtain ⟨t, t', ht, hts, hk⟩ := conf_step e
  have hm : t ∈ c.ts := List.mem_of_getElem? ht
  have hm' : t' ∈ c'.ts := by
    rw [hts]; exact List.mem_set (List.getElem?_eq_some_iff.1 ht).1 t'
  -- the case of a step inside a call
  have key_step : ∀ call s nx, t.cur = some (call, s) → s.step c.heap = some (c'.heap, nx) →
      ∃ path', Shape keys c'.heap path' ∧ Since h0 c'.heap ∧ From h0 c'.heap c'.Begun ∧
        Kept keys h0 c'.heap c'.Begun ∧
        Later c.heap path c'.heap path' ∧ NextOk keys h0 c'.heap path' c.Begun call nx := by
    intro call s nx hc hs
    have hb : ∀ x, call = .insert x → c.Begun x := by
      rintro x rfl
      exact ⟨t, hm, by simp [Thread.begun, hc]⟩
    have ho := v.spot t hm call s hc
    obtain ⟨path', a, b, d, f, g⟩ := spot_step v.shape v.since v.origin hb ho hs
    refine ⟨path', a, b, fun n c1 x e1 e2 => (d n c1 x e1 e2).imp id (hbm x), ?_, f, g⟩
    intro n c0 x h1 h2 h3
    obtain ⟨c1, h4, h5⟩ := v.kept n c0 x h1 h2 (fun y hy => h3 y (hbm y hy))
    rcases step_cases hs with ⟨he, _⟩ | ⟨y, m, rfl, he, _⟩ | ⟨y, m, k, ks, rfl, he, _⟩ | ⟨y, m, rfl, he, _⟩
    · rw [he]; exact ⟨c1, h4, h5⟩
    · rw [he, get_edit, h4]
      split
      · exact ⟨_, rfl, h5⟩
      · exact ⟨_, rfl, h5⟩
    · rw [he, grow_get h4]
      refine ⟨_, rfl, ?_⟩
      split <;> exact h5
    · rw [he, get_edit, h4]
      split
      · rename_i hmn
        subst hmn
        obtain ⟨ha, _, hp, _⟩ := ho
        have := v.shape.data m c1 x h4 h5
        exact absurd (hp.symm.trans this.symm) (h3 y (hbm y (hb y ha)))
      · exact ⟨_, rfl, h5⟩
  rcases hk with ⟨call, rest, h1, h2, hh, rfl⟩ | ⟨call, s, s', h1, h2, rfl⟩ | ⟨call, s, res, h1, h2, rfl⟩
  · refine ⟨path, ⟨by rw [hh]; exact v.shape, by rw [hh]; exact v.since, ?_, ?_, ?_, ?_⟩,
      by rw [hh]; exact Later.refl _ _⟩
    · rw [hh]; exact fun n c1 x e1 e2 => (v.origin n c1 x e1 e2).imp id (hbm x)
    · rw [hh]; exact fun n c0 x e1 e2 e3 => v.kept n c0 x e1 e2 (fun y hy => e3 y (hbm y hy))
    · intro u hu call' s hs
      rw [hts] at hu
      rw [hh]
      rcases mem_set_ts hu with rfl | hu
      · cases hs
        cases call with
        | insert x => exact ⟨rfl, v.shape.pos, by rw [v.shape.root]; rfl⟩
        | search q =>
          refine ⟨rfl, ?_, List.pairwise_singleton _ _, ?_, List.nodup_nil, ?_⟩
          · intro n hn
            rw [List.mem_singleton] at hn
            subst hn
            exact ⟨v.shape.pos, fun _ => ⟨[], rfl⟩⟩
          · intro n _ p hp; cases hp
          · intro x hx; cases hx
      · exact (v.spot u hu call' s hs).later (Later.refl _ _) hbm
    · intro u hu en hen
      rw [hts] at hu
      have : (∀ x, some x ∈ en.2 → Known h0 c.Begun x) ∧ (found keys en.2).Nodup := by
        rcases mem_set_ts hu with rfl | hu
        · exact v.out t hm en hen
        · exact v.out u hu en hen
      exact ⟨fun x hx => (this.1 x hx).mono hbm, this.2⟩
  · obtain ⟨path', a, b, d, f, g, k⟩ := key_step call s _ h1 h2
    refine ⟨path', ⟨a, b, d, f, ?_, ?_⟩, g⟩
    · intro u hu call' s2 hs
      rw [hts] at hu
      rcases mem_set_ts hu with rfl | hu
      · cases hs
        exact SpotOk.later (Later.refl _ _) hbm k
      · exact (v.spot u hu call' s2 hs).later g hbm
    · intro u hu en hen
      rw [hts] at hu
      have : (∀ x, some x ∈ en.2 → Known h0 c.Begun x) ∧ (found keys en.2).Nodup := by
        rcases mem_set_ts hu with rfl | hu
        · exact v.out t hm en hen
        · exact v.out u hu en hen
      exact ⟨fun x hx => (this.1 x hx).mono hbm, this.2⟩
  · obtain ⟨path', a, b, d, f, g, k⟩ := key_step call s _ h1 h2
    refine ⟨path', ⟨a, b, d, f, ?_, ?_⟩, g⟩
    · intro u hu call' s2 hs
      rw [hts] at hu
      rcases mem_set_ts hu with rfl | hu
      · cases hs
      · exact (v.spot u hu call' s2 hs).later g hbm
    · intro u hu en hen
      rw [hts] at hu
      have : (∀ x, some x ∈ en.2 → Known h0 c.Begun x) ∧ (found keys en.2).Nodup := by
        rcases mem_set_ts hu with rfl | hu
        · rcases List.mem_append.1 hen with hen | hen
          · exact v.out t hm en hen
          · rw [List.mem_singleton] at hen
            subst hen
            exact k
        · exact v.out u hu en hen
      exact ⟨fun x hx => (this.1 x hx).mono hbm, this.2⟩

theorem inv_start {keys : T → List Val} {h0 : Heap T} (g : h0.Good keys) (calls : List (List (Call T))) :
    ∃ path, Inv keys h0 (.start h0 calls) path := by
  obtain ⟨hp, path, hr, hg⟩ := g
  refine ⟨path, ⟨hp, hr, fun n c e => (hg n c e).1, ?_, ?_, ?_⟩, Since.refl _, ?_, ?_, ?_, ?_⟩
  · exact fun n c k m e e2 => (hg n c e).2.1 k m e2
  · exact fun n c x e e2 => (hg n c e).2.2.1 x e2
  · intro n c e e2; rw [(hg n c e).2.2.2]; exact e2
  · exact fun n c x e e2 => Or.inl ⟨c, e, e2⟩
  · exact fun n c x e e2 _ => ⟨c, e, e2⟩
  · intro t ht call s hs
    simp only [Conf.start, List.mem_map] at ht
    obtain ⟨l, _, rfl⟩ := ht
    cases hs
  · intro t ht en hen
    simp only [Conf.start, List.mem_map] at ht
    obtain ⟨l, _, rfl⟩ := ht
    cases hen

theorem run_inv {keys : T → List Val} {P : Conf T → Prop}
    (hP : ∀ c c' i, P c → c.step keys i = some c' → P c') :
    ∀ (is : List Nat) {c c' : Conf T}, P c → c.run keys is = some c' → P c' := by
  intro is
  induction is with
  | nil => intro c c' h e; cases e; exact h
  | cons i is ih =>
    intro c c' h e
    simp only [Conf.run, Option.bind_eq_some_iff] at e
    obtain ⟨c1, h1, h2⟩ := e
    exact ih (hP c c1 i h h1) h2

theorem inv_run {keys : T → List Val} {h0 : Heap T} (g : h0.Good keys) {calls : List (List (Call T))}
    {is : List Nat} {c : Conf T} (e : (Conf.start h0 calls).run keys is = some c) :
    ∃ path, Inv keys h0 c path :=
  run_inv (P := fun c => ∃ path, Inv keys h0 c path)
    (fun _ _ _ ⟨_, v⟩ e => (inv_step v e).imp fun _ h => h.1) is (inv_start g calls) e

end TC
end Verif
