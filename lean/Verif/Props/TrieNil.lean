import Verif.Props.TrieLost

/-!
C89: the counterexamples are not special. Whenever one goroutine is about to insert a row whose identity
is not in the trie and another is about to search, some order of their steps lets the search see the node
without its row, whatever the trie holds and whatever the other goroutines are doing: a filter function
that reads the row panics, one that accepts nil has the nil row in its result.
-/

namespace Verif
namespace TC
variable {T : Type}

/-! ## One goroutine alone that only reads -/

/-- Steps of one call that change no node. -/
inductive Looks (h : Heap T) : Spot T → Spot T → Prop where
  | refl {s} : Looks h s s
  | step {s s1 s2} : s.step h = some (h, .at s1) → Looks h s1 s2 → Looks h s s2

theorem Looks.trans {h : Heap T} {s s1 s2 : Spot T} (a : Looks h s s1) (b : Looks h s1 s2) : Looks h s s2 := by
  induction a with
  | refl => exact b
  | step e _ ih => exact .step e (ih b)

theorem Looks.one {h : Heap T} {s s1 : Spot T} (e : s.step h = some (h, .at s1)) : Looks h s s1 := .step e .refl

theorem run_looks {keys : T → List Val} {h : Heap T} {call : Call T} {s s' : Spot T} (r : Looks h s s') :
    ∀ (ts : List (Thread T)) (i : Nat) (t : Thread T), ts[i]? = some t → t.cur = some (call, s) →
    ∃ j, Conf.run keys { heap := h, ts := ts } (List.replicate j i) =
      some { heap := h, ts := ts.set i { t with cur := some (call, s') } } := by
  induction r with
  | @refl s =>
    intro ts i t ht hc
    refine ⟨0, ?_⟩
    have : ts.set i { t with cur := some (call, s) } = ts := by
      obtain ⟨hl, rfl⟩ := List.getElem?_eq_some_iff.1 ht
      rw [show ({ ts[i] with cur := some (call, s) } : Thread T) = ts[i] by rw [← hc]]
      exact List.set_getElem_self hl
    rw [this]; rfl
  | @step s s1 s2 e _ ih =>
    intro ts i t ht hc
    have hl := (List.getElem?_eq_some_iff.1 ht).1
    obtain ⟨j, hj⟩ := ih (ts.set i { t with cur := some (call, s1) }) i { t with cur := some (call, s1) }
      (List.getElem?_set_self hl) rfl
    refine ⟨j + 1, ?_⟩
    rw [List.set_set] at hj
    simp [List.replicate_succ, Conf.run, Conf.step, ht, hc, e, hj]

/-- The search goes on after a node with this data. -/
def Query.Passes (q : Query T) (d : Option T) : Prop := q.cb d = .ok false ∨ q.cb d = .ok true ∧ q.stop = false

/-- What a search alone has done when it is through with the nodes below `n`, or where it stopped. -/
def Swept (h : Heap T) (q : Query T) (n : Nat) (todo : List Nat) (res : List (Option T)) (s : Spot T) : Prop :=
  (∃ res', s = .enter q todo res' ∧ (∀ d ∈ res, d ∈ res') ∧ ∀ p b c, h.walk p n = some b → h[b]? = some c → c.isEnd = true →
    q.Passes c.data ∧ (q.cb c.data = .ok true → c.data ∈ res')) ∨
  ∃ p b c todo' res', s = .test q b todo' res' ∧ h.walk p n = some b ∧ h[b]? = some c ∧ c.isEnd = true ∧ ¬ q.Passes c.data

theorem sweep_list {h : Heap T} {q : Query T} : ∀ (ns : List Nat)
    (_ : ∀ n ∈ ns, ∀ todo res, ∃ s, Looks h (.enter q (n :: todo) res) s ∧ Swept h q n todo res s) (todo : List Nat) (res : List (Option T)),
    ∃ s, Looks h (.enter q (ns ++ todo) res) s ∧
      ((∃ res', s = .enter q todo res' ∧ (∀ d ∈ res, d ∈ res') ∧ ∀ n ∈ ns, ∀ p b c, h.walk p n = some b → h[b]? = some c →
        c.isEnd = true → q.Passes c.data ∧ (q.cb c.data = .ok true → c.data ∈ res')) ∨
      ∃ n ∈ ns, ∃ p b c todo' res', s = .test q b todo' res' ∧ h.walk p n = some b ∧ h[b]? = some c ∧ c.isEnd = true ∧
        ¬ q.Passes c.data) := by
  intro ns
  induction ns with
  | nil => exact fun _ todo res => ⟨_, .refl, .inl ⟨res, rfl, fun _ h => h, nofun⟩⟩
  | cons n ns ih =>
    intro hs todo res
    obtain ⟨s, h1, h2⟩ := hs n (by simp) (ns ++ todo) res
    rcases h2 with ⟨res', rfl, hr, hp⟩ | ⟨p, b, c, todo', res', h3⟩
    · obtain ⟨s', h4, h5⟩ := ih (fun m hm => hs m (by simp [hm])) todo res'
      refine ⟨s', h1.trans h4, ?_⟩
      rcases h5 with ⟨res2, rfl, hr2, hp2⟩ | ⟨m, hm, h6⟩
      · refine .inl ⟨res2, rfl, fun d hd => hr2 d (hr d hd), fun m hm p b c hw hc he => ?_⟩
        rcases List.mem_cons.1 hm with rfl | hm
        · exact ⟨(hp p b c hw hc he).1, fun ha => hr2 _ ((hp p b c hw hc he).2 ha)⟩
        · exact hp2 m hm p b c hw hc he
      · exact .inr ⟨m, by simp [hm], h6⟩
    · exact ⟨s, h1, .inr ⟨n, by simp, p, b, c, todo', res', h3⟩⟩

/-- A search alone comes through with the nodes below `n`, or to one at which it stops. -/
theorem sweep {keys : T → List Val} {h : Heap T} {path : Nat → List Val} (sh : Shape keys h path) {q : Query T} {D : Nat}
    (hD : ∀ n, n < h.length → (path n).length ≤ D) : ∀ (d n : Nat), D + 1 ≤ (path n).length + d → n < h.length →
    ∀ todo res, ∃ s, Looks h (.enter q (n :: todo) res) s ∧ Swept h q n todo res s := by
  intro d
  induction d with
  | zero => intro n h1 h2; have := hD n h2; omega
  | succ d ih =>
    intro n hd hn todo res
    obtain ⟨c, hc⟩ := get_of_lt hn
    -- from `spread` on
    have rest : ∀ res1, (∀ d ∈ res, d ∈ res1) → (c.isEnd = true → q.Passes c.data ∧ (q.cb c.data = .ok true → c.data ∈ res1)) →
        ∃ s, Looks h (.spread q n todo res1) s ∧ Swept h q n todo res s := by
      intro res1 hr1 hp1
      have hmem : ∀ m, m ∈ q.ord.ord [.int n] Nat (c.child.map (·.2)) ↔ ∃ k, c.child.get k = some m := by
        intro m
        rw [Ord.mem_ord, List.mem_map]
        constructor
        · rintro ⟨⟨k, m'⟩, h1, rfl⟩
          exact ⟨k, (GoMap.mem_iff_get (sh.wf n c hc)).1 h1⟩
        · rintro ⟨k, hk⟩
          exact ⟨(k, m), GoMap.get_some_mem hk, rfl⟩
      obtain ⟨s, h1, h2⟩ := sweep_list (q := q) (h := h) (q.ord.ord [.int n] Nat (c.child.map (·.2))) (by
        intro m hm
        obtain ⟨k, hk⟩ := (hmem m).1 hm
        obtain ⟨-, h2, h3⟩ := sh.kid n c k m hc hk
        exact ih m (by rw [h3]; simp; omega) h2) todo res1
      refine ⟨s, .step (by simp [Spot.step, hc]) h1, ?_⟩
      rcases h2 with ⟨res', rfl, hr, hp⟩ | ⟨m, hm, p, b, c', todo', res', h3, h4, h5⟩
      · refine .inl ⟨res', rfl, fun d hd => hr d (hr1 d hd), fun p b c' hw hc' he => ?_⟩
        cases p with
        | nil =>
          cases hw
          rw [hc] at hc'; cases hc'
          exact ⟨(hp1 he).1, fun ha => hr _ ((hp1 he).2 ha)⟩
        | cons k p =>
          simp only [Heap.walk, hc] at hw
          split at hw
          · cases hw
          · rename_i m hk
            exact hp m ((hmem m).2 ⟨k, hk⟩) p b c' hw hc' he
      · obtain ⟨k, hk⟩ := (hmem m).1 hm
        exact .inr ⟨k :: p, b, c', todo', res', h3, by simp only [Heap.walk, hc, hk]; exact h4, h5⟩
    by_cases he : c.isEnd = true
    · have h1 : Looks h (.enter q (n :: todo) res) (.test q n todo res) := .one (by simp [Spot.step, hc, he])
      by_cases hp : q.Passes c.data
      · rcases hp with hp | ⟨hp, hs⟩
        · obtain ⟨s, h2, h3⟩ := rest res (fun _ h => h) fun _ => ⟨.inl hp, fun e => by rw [hp] at e; cases e⟩
          exact ⟨s, h1.trans (.step (by simp [Spot.step, hc, hp]) h2), h3⟩
        · obtain ⟨s, h2, h3⟩ := rest (res ++ [c.data]) (fun d hd => List.mem_append_left _ hd) fun _ => ⟨.inr ⟨hp, hs⟩, fun _ => by simp⟩
          exact ⟨s, h1.trans (.step (by simp only [Spot.step, hc, hp]; rfl) (.step (by simp [Spot.step, hc, hs]) h2)), h3⟩
      · exact ⟨_, h1, .inr ⟨[], n, c, todo, res, rfl, rfl, hc, he, hp⟩⟩
    · obtain ⟨s, h2, h3⟩ := rest res (fun _ h => h) fun h => absurd h he
      exact ⟨s, .step (by simp [Spot.step, hc, he]) h2, h3⟩

theorem exists_bound (f : Nat → Nat) : ∀ N, ∃ D, ∀ n, n < N → f n ≤ D
  | 0 => ⟨0, nofun⟩
  | N + 1 => by
    obtain ⟨D, hD⟩ := exists_bound f N
    refine ⟨D + f N, fun n hn => ?_⟩
    by_cases h : n = N
    · subst h; omega
    · have := hD n (by omega); omega

/-! ## The insertion that has not stored its row yet -/

/-- An `Insert` that is alone from node `n` on comes to a node that it has marked and whose row it has not stored. -/
theorem run_mark {keys : T → List Val} {x : T} : ∀ (ks : List Val) (h : Heap T) (n : Nat) (ts : List (Thread T)) (i : Nat)
    (t : Thread T), Closed h → n < h.length → ts[i]? = some t → t.cur = some (.insert x, .down x n ks) →
    ∃ j h' m c, Conf.run keys { heap := h, ts := ts } (List.replicate j i) =
        some { heap := h', ts := ts.set i { t with cur := some (.insert x, .save x m) } } ∧
      Since h h' ∧ h'.row = h.row ∧ h'.walk (strip ks) n = some m ∧ h'[m]? = some c ∧ c.isEnd = true := by
  intro ks
  induction ks with
  | nil =>
    intro h n ts i t _ hn ht hc
    obtain ⟨c, hcn⟩ := get_of_lt hn
    refine ⟨1, h.edit n (fun c => { c with isEnd := true }), n, { c with isEnd := true }, ?_, (Since.refl h).edit fun _ => rfl,
      funext (row_mark h n), rfl, by rw [get_edit, hcn]; simp, rfl⟩
    simp [List.replicate, Conf.run, Conf.step, ht, hc, Spot.step]
  | cons k ks ih =>
    intro h n ts i t o hn ht hc
    have hl := (List.getElem?_eq_some_iff.1 ht).1
    by_cases hk : k = .nil
    · subst hk
      obtain ⟨j, h', m, c, hj, hr⟩ := ih h n (ts.set i { t with cur := some (.insert x, .down x n ks) }) i
        { t with cur := some (.insert x, .down x n ks) } o hn (List.getElem?_set_self hl) rfl
      refine ⟨j + 1, h', m, c, ?_, by simpa [strip] using hr⟩
      rw [List.set_set] at hj
      simp [List.replicate_succ, Conf.run, Conf.step, ht, hc, Spot.step, hj]
    · obtain ⟨c, hcn⟩ := get_of_lt hn
      have es : strip (k :: ks) = [k] ++ strip ks := by simp [strip, hk]
      cases hg : c.child.get k with
      | some m =>
        obtain ⟨j, h', m', c', hj, hs, hr, hw, h5⟩ := ih h m (ts.set i { t with cur := some (.insert x, .down x m ks) }) i
          { t with cur := some (.insert x, .down x m ks) } o (o n c k m hcn hg) (List.getElem?_set_self hl) rfl
        refine ⟨j + 1, h', m', c', ?_, hs, hr, ?_, h5⟩
        · rw [List.set_set] at hj
          simp [List.replicate_succ, Conf.run, Conf.step, ht, hc, Spot.step, hk, hcn, hg, hj]
        · rw [es, walk_append, hs.walk [k] n m (by rw [walk_one hcn, hg])]
          exact hw
      | none =>
        obtain ⟨j, h', m', c', hj, hs, hr, hw, h5⟩ := ih (h.grow n k) h.length
          (ts.set i { t with cur := some (.insert x, .down x h.length ks) }) i
          { t with cur := some (.insert x, .down x h.length ks) } (closed_grow o n k) (by rw [length_grow]; omega)
          (List.getElem?_set_self hl) rfl
        have hno : ∀ c0 : Cell T, h[n]? = some c0 → c0.child.get k = none := fun c0 h0 => by
          rw [hcn] at h0; cases h0; exact hg
        refine ⟨j + 2, h', m', c', ?_, ?_, ?_, ?_, h5⟩
        · rw [List.set_set] at hj
          have e : Conf.run keys { heap := h, ts := ts } (List.replicate (j + 2) i) = Conf.run keys
              { heap := h.grow n k, ts := ts.set i { t with cur := some (.insert x, .down x h.length ks) } }
              (List.replicate j i) := by
            simp [List.replicate_succ, Conf.run, Conf.step, ht, hc, Spot.step, hk, hcn, hg, List.getElem?_set_self hl,
              Heap.grow]
          rw [e, hj]
        · have h0 := (Since.refl h).grown (n := n) (k := k) hno
          refine ⟨Nat.le_trans h0.len hs.len, ?_, ?_⟩
          · intro a c0 k' r e1 e2
            obtain ⟨c1, e3, e4⟩ := h0.keep a c0 k' r e1 e2
            exact hs.keep a c1 k' r e3 e4
          · intro a c0 k' r e1 e2 hr
            obtain ⟨c1, e3, e4⟩ := hs.old a c0 k' r e1 e2 (Nat.lt_of_lt_of_le hr h0.len)
            exact h0.old a c1 k' r e3 e4 hr
        · rw [hr]; exact funext (row_grow hno)
        · rw [es, walk_append, hs.walk [k] n h.length (by rw [walk_one (grow_get hcn)]; simp [GoMap.get_set])]
          exact hw

/-- Goroutine `i` has marked a node that has no row yet; goroutine `j` searches. -/
theorem half_done {keys : T → List Val} {h0 : Heap T} (g : h0.Good keys) {calls : List (List (Call T))} {i j : Nat}
    {x : T} {q : Query T} {l m : List (Call T)} (hij : i ≠ j) (hi : calls[i]? = some (.insert x :: l))
    (hj : calls[j]? = some (.search q :: m)) (hx : h0.row (key keys x) = none) :
    ∃ is h ts s, (Conf.start h0 calls).run keys is = some { heap := h, ts := ts } ∧
      ts[j]? = some { todo := m, cur := some (.search q, s) } ∧ Swept h q 0 [] [] s ∧ h.row = h0.row ∧
      ∃ p b c, h.walk p 0 = some b ∧ h[b]? = some c ∧ c.isEnd = true ∧ c.data = none := by
  have ti : (Conf.start h0 calls).ts[i]? = some { todo := .insert x :: l } := by simp [Conf.start, hi]
  have tj : (Conf.start h0 calls).ts[j]? = some { todo := .search q :: m } := by simp [Conf.start, hj]
  have li := (List.getElem?_eq_some_iff.1 ti).1
  have lj := (List.getElem?_eq_some_iff.1 tj).1
  obtain ⟨n1, h, b, c, e1, -, hr, hw, hc, he⟩ := run_mark (keys := keys) (x := x) (keys x) h0 0
    ((Conf.start h0 calls).ts.set i { todo := l, cur := some (.insert x, .down x 0 (keys x)) }) i _ (closed_good g) g.1
    (List.getElem?_set_self li) rfl
  rw [List.set_set] at e1
  have E1 : (Conf.start h0 calls).run keys (i :: List.replicate n1 i) =
      some { heap := h, ts := (Conf.start h0 calls).ts.set i { todo := l, cur := some (.insert x, .save x b) } } := by
    simp only [Conf.run, Conf.step, ti, Call.first, Option.bind_some]
    exact e1
  generalize hts : (Conf.start h0 calls).ts.set i _ = ts1 at E1
  have tj1 : ts1[j]? = some { todo := .search q :: m } := by rw [← hts, ← tj]; exact List.getElem?_set_ne hij
  have lj1 := (List.getElem?_eq_some_iff.1 tj1).1
  obtain ⟨path, v⟩ := inv_run g E1
  obtain ⟨D, hD⟩ := exists_bound (fun n => (path n).length) h.length
  obtain ⟨s, r, sw⟩ := sweep v.shape (q := q) hD (D + 1) 0 (by omega) v.shape.pos [] []
  obtain ⟨n2, e2⟩ := run_looks (keys := keys) (call := .search q) r
    (ts1.set j { todo := m, cur := some (.search q, .enter q [0] []) }) j _ (List.getElem?_set_self lj1) rfl
  rw [List.set_set] at e2
  refine ⟨i :: List.replicate n1 i ++ j :: List.replicate n2 j, h, _, s, ?_, List.getElem?_set_self lj1, sw, hr,
    strip (keys x), b, c, hw, hc, he, ?_⟩
  · rw [run_then, E1, Option.bind_some]
    simpa [Conf.run, Conf.step, tj1, Call.first] using e2
  · have : h.row (strip (keys x)) = none := by rw [hr]; exact hx
    simpa [Heap.row, hw, hc] using this

/-- C89. One goroutine is about to insert a row whose identity is not in the trie, another to search with a filter
function that panics on the nil row: some order of steps makes the search panic. (A search for the first match must not
find one before.) -/
theorem C89_crash {keys : T → List Val} {h0 : Heap T} (g : h0.Good keys) {calls : List (List (Call T))} {i j : Nat}
    {x : T} {q : Query T} {l m : List (Call T)} (hij : i ≠ j) (hi : calls[i]? = some (.insert x :: l))
    (hj : calls[j]? = some (.search q :: m)) (hx : h0.row (key keys x) = none) (hn : q.cb none = .panic)
    (hq : ∀ p y, h0.row p = some y → q.cb (some y) = .ok false ∨ q.cb (some y) = .ok true ∧ q.stop = false) :
    ∃ is c t, (Conf.start h0 calls).run keys is = some c ∧ c.ts[j]? = some t ∧ t.cur = some (.search q, .dead) := by
  obtain ⟨is, h, ts, s, e, ht, sw, hr, p, b, c, hw, hc, he, hd⟩ := half_done g hij hi hj hx
  have hl := (List.getElem?_eq_some_iff.1 ht).1
  rcases sw with ⟨res', -, -, hp⟩ | ⟨p', b', c', todo', res', rfl, hw', hc', he', hp⟩
  · have := (hp p b c hw hc he).1
    rw [hd] at this
    rcases this with h1 | ⟨h1, -⟩ <;> rw [hn] at h1 <;> cases h1
  · have hd' : c'.data = none := by
      cases hd' : c'.data with
      | none => rfl
      | some y =>
        refine absurd (hq p' y ?_) (by rw [← hd']; exact hp)
        rw [← hr]; simp [Heap.row, hw', hc', hd']
    refine ⟨is ++ [j], _, _, by rw [run_then, e, Option.bind_some]; simp only [Conf.run, Conf.step, ht, Spot.step, hc', hd', hn]; rfl,
      List.getElem?_set_self hl, rfl⟩

/-- C89. With a filter function that accepts the nil row, as that of `Data`, some order of steps makes the search return
with a nil row in its result. -/
theorem C89_nil {keys : T → List Val} {h0 : Heap T} (g : h0.Good keys) {calls : List (List (Call T))} {i j : Nat}
    {x : T} {q : Query T} {l m : List (Call T)} (hij : i ≠ j) (hi : calls[i]? = some (.insert x :: l))
    (hj : calls[j]? = some (.search q :: m)) (hx : h0.row (key keys x) = none) (hn : q.cb none = .ok true)
    (hq : ∀ p y, h0.row p = some y → q.cb (some y) = .ok false ∨ q.cb (some y) = .ok true ∧ q.stop = false) :
    ∃ is c t res, (Conf.start h0 calls).run keys is = some c ∧ c.ts[j]? = some t ∧ t.out = [(.search q, res)] ∧ none ∈ res := by
  obtain ⟨is, h, ts, s, e, ht, sw, hr, p, b, c, hw, hc, he, hd⟩ := half_done g hij hi hj hx
  have hl := (List.getElem?_eq_some_iff.1 ht).1
  rcases sw with ⟨res', rfl, -, hp⟩ | ⟨p', b', c', todo', res', rfl, hw', hc', he', hp⟩
  · refine ⟨is ++ [j], _, _, res', by rw [run_then, e, Option.bind_some]; simp only [Conf.run, Conf.step, ht, Spot.step]; rfl,
      List.getElem?_set_self hl, rfl, ?_⟩
    have := (hp p b c hw hc he).2
    rw [hd] at this
    exact this hn
  · have hd' : c'.data = none := by
      cases hd' : c'.data with
      | none => rfl
      | some y =>
        refine absurd (hq p' y ?_) (by rw [← hd']; exact hp)
        rw [← hr]; simp [Heap.row, hw', hc', hd']
    have hs : q.stop = true := by
      cases hs : q.stop with
      | true => rfl
      | false => exact absurd (.inr ⟨by rw [hd']; exact hn, hs⟩) hp
    refine ⟨is ++ [j, j], _, _, res' ++ [none], by
      rw [run_then, e, Option.bind_some]
      simp only [Conf.run, Conf.step, ht, Spot.step, hc', hd', hn, Option.bind_some, List.getElem?_set_self hl, hs, if_true, List.set_set]
      rfl, List.getElem?_set_self hl, rfl, by simp⟩

/-- A goroutine inserts a row of a new tenant into a trie with a row; another searches for any row. -/
example : ∃ is c t, (Conf.start heapT [[.insert rowU], [.search (ask rowU)]]).run dkeys is = some c ∧ c.ts[1]? = some t ∧
    t.cur = some (.search (ask rowU), .dead) :=
  C89_crash good_heapT (show 0 ≠ 1 by decide) rfl rfl (by decide +kernel) rfl fun p y _ => by
    cases h : filterFunc rowU y <;> simp [h]

/-- A third goroutine asks for all the rows. -/
example : ∃ is c t res, (Conf.start heapT [[.search (ask rowT)], [.insert rowU], [.search askAll]]).run dkeys is = some c ∧
    c.ts[2]? = some t ∧ t.out = [(.search askAll, res)] ∧ none ∈ res :=
  C89_nil good_heapT (show 1 ≠ 2 by decide) rfl rfl (by decide +kernel) rfl fun _ _ _ => .inr ⟨rfl, rfl⟩

end TC
end Verif
