import Verif.Props.TrieConc

/-!
C88: the hypothesis `Apart` of `C88_serial_partial` cannot be dropped. Whenever two goroutines are
about to insert rows with different identities that need the same new node, some order of their steps
loses one of the rows, whatever the trie holds and whatever the other goroutines are doing.
-/

namespace Verif
namespace TC
variable {T : Type}

theorem run_then {keys : T → List Val} {c : Conf T} (is js : List Nat) :
    c.run keys (is ++ js) = (c.run keys is).bind fun c' => c'.run keys js := by
  induction is generalizing c with
  | nil => rfl
  | cons i is ih =>
    simp only [List.cons_append, Conf.run]
    cases c.step keys i with
    | none => rfl
    | some c' => exact ih

/-- What an `Insert` that is alone from node `n` on does to the nodes. -/
def ins (x : T) : Heap T → Nat → List Val → Heap T
  | h, n, [] => (h.edit n (fun c => { c with isEnd := true })).edit n (fun c => { c with data := some x })
  | h, n, k :: ks =>
    if k = .nil then ins x h n ks
    else
      match h.walk [k] n with
      | some m => ins x h m ks
      | none => ins x (h.grow n k) h.length ks

theorem walk_single {h : Heap T} {n : Nat} {c : Cell T} (hc : h[n]? = some c) (k : Val) : h.walk [k] n = c.child.get k :=
  walk_one hc k

/-- Every child is a node. -/
def Closed (h : Heap T) : Prop := ∀ (n : Nat) (c : Cell T) (k : Val) (m : Nat), h[n]? = some c → c.child.get k = some m → m < h.length

theorem closed_grow {h : Heap T} (o : Closed h) (n : Nat) (k : Val) : Closed (h.grow n k) := by
  intro a c k' m hc hm
  rw [length_grow]
  rcases get_grow hc with ⟨_, rfl⟩ | ⟨_, c0, h0, ⟨_, rfl⟩ | ⟨_, rfl⟩⟩
  · cases hm
  · simp only [GoMap.get_set] at hm
    split at hm
    · cases hm; omega
    · have := o _ _ _ _ h0 hm; omega
  · have := o _ _ _ _ h0 hm; omega

theorem closed_good {keys : T → List Val} {h : Heap T} (g : h.Good keys) : Closed h := by
  obtain ⟨_, path, _, hg⟩ := g
  exact fun n c k m hc hm => ((hg n c hc).2.1 k m hm).2.1

/-- An `Insert` that is alone from node `n` on runs to its end. -/
theorem run_ins {keys : T → List Val} {x : T} : ∀ (ks : List Val) (h : Heap T) (n : Nat) (ts : List (Thread T)) (i : Nat)
    (t : Thread T), Closed h → n < h.length → ts[i]? = some t → t.cur = some (.insert x, .down x n ks) →
    ∃ j, Conf.run keys { heap := h, ts := ts } (List.replicate j i) =
      some { heap := ins x h n ks, ts := ts.set i { t with cur := none, out := t.out ++ [(.insert x, [])] } } := by
  intro ks
  induction ks with
  | nil =>
    intro h n ts i t _ hn ht hc
    have hl := (List.getElem?_eq_some_iff.1 ht).1
    exact ⟨2, by simp [List.replicate, Conf.run, Conf.step, ht, hc, Spot.step, List.getElem?_set_self hl, ins]⟩
  | cons k ks ih =>
    intro h n ts i t o hn ht hc
    have hl := (List.getElem?_eq_some_iff.1 ht).1
    by_cases hk : k = .nil
    · subst hk
      obtain ⟨j, hj⟩ := ih h n (ts.set i { t with cur := some (.insert x, .down x n ks) }) i
        { t with cur := some (.insert x, .down x n ks) } o hn (List.getElem?_set_self hl) rfl
      refine ⟨j + 1, ?_⟩
      rw [List.set_set] at hj
      simp [List.replicate_succ, Conf.run, Conf.step, ht, hc, Spot.step, hj, ins]
    · obtain ⟨c, hcn⟩ := get_of_lt hn
      have hw := walk_single hcn k
      cases hg : c.child.get k with
      | some m =>
        obtain ⟨j, hj⟩ := ih h m (ts.set i { t with cur := some (.insert x, .down x m ks) }) i
          { t with cur := some (.insert x, .down x m ks) } o (o n c k m hcn hg) (List.getElem?_set_self hl) rfl
        refine ⟨j + 1, ?_⟩
        rw [List.set_set] at hj
        rw [hg] at hw
        simp [List.replicate_succ, Conf.run, Conf.step, ht, hc, Spot.step, hk, hcn, hg, hj, ins, hw]
      | none =>
        obtain ⟨j, hj⟩ := ih (h.grow n k) h.length (ts.set i { t with cur := some (.insert x, .down x h.length ks) }) i
          { t with cur := some (.insert x, .down x h.length ks) } (closed_grow o n k) (by rw [length_grow]; omega)
          (List.getElem?_set_self hl) rfl
        refine ⟨j + 2, ?_⟩
        rw [List.set_set] at hj
        rw [hg] at hw
        have e : Conf.run keys { heap := h, ts := ts } (List.replicate (j + 2) i) = Conf.run keys
            { heap := h.grow n k, ts := ts.set i { t with cur := some (.insert x, .down x h.length ks) } }
            (List.replicate j i) := by
          simp [List.replicate_succ, Conf.run, Conf.step, ht, hc, Spot.step, hk, hcn, hg, List.getElem?_set_self hl,
            Heap.grow]
        rw [e, hj]
        simp [ins, hk, hw]

/-- Going down nodes that are there changes nothing. -/
theorem run_down {keys : T → List Val} {x : T} {h : Heap T} {r : List Val} : ∀ (l : List Val) (n m : Nat)
    (ts : List (Thread T)) (i : Nat) (t : Thread T), h.walk (strip l) n = some m → ts[i]? = some t →
    t.cur = some (.insert x, .down x n (l ++ r)) →
    ∃ j, Conf.run keys { heap := h, ts := ts } (List.replicate j i) =
      some { heap := h, ts := ts.set i { t with cur := some (.insert x, .down x m r) } } := by
  intro l
  induction l with
  | nil =>
    intro n m ts i t hw ht hc
    cases hw
    refine ⟨0, ?_⟩
    have : ts.set i { t with cur := some (.insert x, .down x n r) } = ts := by
      obtain ⟨hl, rfl⟩ := List.getElem?_eq_some_iff.1 ht
      rw [show ({ ts[i] with cur := some (.insert x, .down x n r) } : Thread T) = ts[i] by
        rw [show (some (Call.insert x, Spot.down x n r)) = ts[i].cur from hc.symm]]
      exact List.set_getElem_self hl
    rw [this]; rfl
  | cons k l ih =>
    intro n m ts i t hw ht hc
    have hl := (List.getElem?_eq_some_iff.1 ht).1
    by_cases hk : k = .nil
    · subst hk
      obtain ⟨j, hj⟩ := ih n m (ts.set i { t with cur := some (.insert x, .down x n (l ++ r)) }) i
        { t with cur := some (.insert x, .down x n (l ++ r)) } (by simpa [strip] using hw) (List.getElem?_set_self hl) rfl
      refine ⟨j + 1, ?_⟩
      rw [List.set_set] at hj
      simp [List.replicate_succ, Conf.run, Conf.step, ht, hc, Spot.step, hj]
    · rw [show strip (k :: l) = k :: strip l by simp [strip, hk]] at hw
      simp only [Heap.walk] at hw
      split at hw
      · cases hw
      · rename_i c hcn
        split at hw
        · cases hw
        · rename_i m' hg
          obtain ⟨j, hj⟩ := ih m' m (ts.set i { t with cur := some (.insert x, .down x m' (l ++ r)) }) i
            { t with cur := some (.insert x, .down x m' (l ++ r)) } hw (List.getElem?_set_self hl) rfl
          refine ⟨j + 1, ?_⟩
          rw [List.set_set] at hj
          simp [List.replicate_succ, Conf.run, Conf.step, ht, hc, Spot.step, hk, hcn, hg, hj]

theorem ins_down {x : T} {h : Heap T} {r : List Val} : ∀ (l : List Val) (n m : Nat), h.walk (strip l) n = some m →
    ins x h n (l ++ r) = ins x h m r := by
  intro l
  induction l with
  | nil => intro n m hw; cases hw; rfl
  | cons k l ih =>
    intro n m hw
    by_cases hk : k = .nil
    · subst hk
      simp only [List.cons_append, ins, if_true]
      exact ih n m (by simpa [strip] using hw)
    · rw [show strip (k :: l) = [k] ++ strip l by simp [strip, hk], walk_append] at hw
      obtain ⟨m', h1, h2⟩ := Option.bind_eq_some_iff.1 hw
      simp only [List.cons_append, ins, if_neg hk, h1]
      exact ih m' m h2

theorem stores_mem {keys : T → List Val} : ∀ (is : List Nat) (c : Conf T), ∀ z ∈ c.stores keys is, z.1 ∈ is := by
  intro is
  induction is with
  | nil => intro c z hz; cases hz
  | cons i is ih =>
    intro c z hz
    simp only [Conf.stores] at hz
    split at hz
    · cases hz
    · rcases List.mem_append.1 hz with hz | hz
      · cases hs : c.storing i with
        | none => simp [hs] at hz
        | some x => simp [hs] at hz; simp [hz]
      · exact List.mem_cons_of_mem _ (ih _ z hz)

/-- An insertion alone stores its row and leaves every other row. -/
theorem row_ins {keys : T → List Val} {h : Heap T} (g : h.Good keys) (x : T) :
    (ins x h 0 (keys x)).row = put keys h.row x := by
  have hp := g.1
  obtain ⟨j, hj⟩ := run_ins (keys := keys) (keys x) h 0 [{ todo := [], cur := some (.insert x, .down x 0 (keys x)) }] 0 _
    (closed_good g) hp rfl rfl
  have e : (Conf.start h [[.insert x]]).run keys (0 :: List.replicate j 0) =
      some { heap := ins x h 0 (keys x), ts := [{ todo := [], out := [(.insert x, [])] }] } := hj
  obtain ⟨h1, h2⟩ := C88_serial_partial g (C88_apart_alone keys h _ [] nofun) e
  have h3 := h1 0 _ rfl
  have hl : ∀ z ∈ (Conf.start h [[Call.insert x]]).stores keys (0 :: List.replicate j 0), z.1 = 0 := fun z hz => by
    rcases List.mem_cons.1 (stores_mem _ _ z hz) with h | h
    · exact h
    · exact (List.mem_replicate.1 h).2
  generalize (Conf.start h [[Call.insert x]]).stores keys (0 :: List.replicate j 0) = L at h2 h3 hl
  have h4 : L.map (·.2) = [x] := by
    have : L.filter (·.1 = 0) = L := List.filter_eq_self.2 fun z hz => by simp [hl z hz]
    unfold storedBy at h3
    rw [this] at h3
    simpa [rows, Call.row] using h3
  rw [h4] at h2
  exact h2

/-- Where a path leaves the trie. -/
theorem walk_break {h : Heap T} (o : Closed h) : ∀ (p : List Val) (n : Nat), n < h.length → h.walk p n = none →
    ∃ q k r m c, p = q ++ k :: r ∧ h.walk q n = some m ∧ h[m]? = some c ∧ c.child.get k = none := by
  intro p
  induction p with
  | nil => intro n _ hw; cases hw
  | cons k p ih =>
    intro n hn hw
    obtain ⟨c, hc⟩ := get_of_lt hn
    cases hg : c.child.get k with
    | none => exact ⟨[], k, p, n, c, rfl, rfl, hc, hg⟩
    | some m =>
      simp only [Heap.walk, hc, hg] at hw
      obtain ⟨q, k', r, m', c', h1, h2, h3, h4⟩ := ih m (o n c k m hc hg) hw
      exact ⟨k :: q, k', r, m', c', by rw [h1]; rfl, by simp only [Heap.walk, hc, hg]; exact h2, h3, h4⟩

theorem strip_split : ∀ (l q : List Val) (k : Val) (r : List Val), strip l = q ++ k :: r →
    ∃ a b, l = a ++ k :: b ∧ strip a = q ∧ strip b = r := by
  intro l
  induction l with
  | nil => intro q k r h; cases q <;> cases h
  | cons v l ih =>
    intro q k r h
    by_cases hv : v = .nil
    · subst hv
      obtain ⟨a, b, h1, h2, h3⟩ := ih q k r (by simpa [strip] using h)
      exact ⟨.nil :: a, b, by rw [h1]; rfl, by simpa [strip] using h2, h3⟩
    · rw [show strip (v :: l) = v :: strip l by simp [strip, hv]] at h
      cases q with
      | nil =>
        obtain ⟨rfl, h'⟩ := List.cons.inj h
        exact ⟨[], l, rfl, rfl, h'⟩
      | cons v' q =>
        obtain ⟨rfl, h'⟩ := List.cons.inj h
        obtain ⟨a, b, h1, h2, h3⟩ := ih q k r h'
        exact ⟨v :: a, b, by rw [h1]; rfl, by rw [← h2]; simp [strip, hv], h3⟩

/-- A goroutine begins an insertion and comes to the first node that is missing. -/
theorem run_make {keys : T → List Val} {x : T} {c : Conf T} {i : Nat} {t : Thread T} {l : List (Call T)} {a b : List Val}
    {k : Val} {n : Nat} {d : Cell T} (ht : c.ts[i]? = some t) (hc : t.cur = none) (hl : t.todo = .insert x :: l)
    (hk : keys x = a ++ k :: b) (hn : k ≠ .nil) (hw : c.heap.walk (strip a) 0 = some n) (hd : c.heap[n]? = some d)
    (hg : d.child.get k = none) :
    ∃ is, c.run keys is = some { c with ts := c.ts.set i { t with cur := some (.insert x, .make x n k b), todo := l } } := by
  have hi := (List.getElem?_eq_some_iff.1 ht).1
  obtain ⟨j, hj⟩ := run_down (keys := keys) (x := x) (r := k :: b) a 0 n
    (c.ts.set i { t with cur := some (.insert x, .down x 0 (keys x)), todo := l }) i
    { t with cur := some (.insert x, .down x 0 (keys x)), todo := l } hw (List.getElem?_set_self hi) (by rw [hk])
  refine ⟨i :: List.replicate j i ++ [i], ?_⟩
  have e1 : c.run keys (i :: List.replicate j i) =
      some { c with ts := c.ts.set i { t with cur := some (.insert x, .down x n (k :: b)), todo := l } } := by
    rw [List.set_set] at hj
    simpa [Conf.run, Conf.step, ht, hc, hl, Call.first] using hj
  rw [run_then, e1]
  simp [Conf.run, Conf.step, List.getElem?_set_self hi, Spot.step, hn, hd, hg]

/-- The trie is at rest when nobody is between marking a node and storing the row. -/
theorem good_quiet {keys : T → List Val} {h0 : Heap T} (g : h0.Good keys) {calls : List (List (Call T))}
    {is : List Nat} {c : Conf T} (e : (Conf.start h0 calls).run keys is = some c)
    (d : ∀ t ∈ c.ts, ∀ call x n, t.cur ≠ some (call, .save x n)) : c.heap.Good keys := by
  obtain ⟨path, v⟩ := inv_run g e
  have hp : Pend c := by
    refine run_inv (P := Pend) (fun _ _ _ h e => pend_step h e) is ?_ e
    obtain ⟨_, path0, _, hg⟩ := g
    intro n a ha hm
    left
    rw [← (hg n a ha).2.2.2]; exact hm
  refine ⟨v.shape.pos, path, v.shape.root, fun n a ha => ⟨v.shape.wf n a ha,
    fun k m hk => v.shape.kid n a k m ha hk, fun x hx => v.shape.data n a x ha hx, ?_⟩⟩
  rw [Bool.eq_iff_iff]
  constructor
  · intro hm
    rcases hp n a ha hm with h | ⟨t, ht, call, x, hc⟩
    · exact h
    · exact absurd hc (d t ht call x n)
  · exact v.shape.mark n a ha

/-- C88. Two goroutines about to insert rows of different identities whose common path is not in the
trie: some order of steps ends with both insertions returned and the first row nowhere. -/
theorem C88_lost {keys : T → List Val} {h0 : Heap T} (g : h0.Good keys) {calls : List (List (Call T))} {i j : Nat}
    {x y : T} {l m : List (Call T)} {p : List Val} (hij : i ≠ j) (hi : calls[i]? = some (.insert x :: l))
    (hj : calls[j]? = some (.insert y :: m)) (px : p <+: key keys x) (py : p <+: key keys y)
    (hp : h0.walk p 0 = none) (hxy : key keys x ≠ key keys y) :
    ∃ is c t u, (Conf.start h0 calls).run keys is = some c ∧ c.ts[i]? = some t ∧ c.ts[j]? = some u ∧
      t.out = [(.insert x, [])] ∧ u.out = [(.insert y, [])] ∧ c.heap.row (key keys x) = none ∧
      c.heap.row (key keys y) = some y := by
  obtain ⟨q, k, r, n, d, rfl, hw, hd, hg⟩ := walk_break (closed_good g) p 0 g.1 hp
  obtain ⟨rx, hx⟩ := px
  obtain ⟨ry, hy⟩ := py
  rw [List.append_assoc, List.cons_append] at hx hy
  have hkn : k ≠ .nil := by
    have : k ∈ key keys x := by rw [← hx]; simp
    unfold key at this
    simpa using (List.mem_filter.1 this).2
  obtain ⟨ax, bx, kx, sx, tx⟩ := strip_split (keys x) q k _ hx.symm
  obtain ⟨ay, bY, ky, sy, ty⟩ := strip_split (keys y) q k _ hy.symm
  have ti : (Conf.start h0 calls).ts[i]? = some { todo := .insert x :: l } := by simp [Conf.start, hi]
  have tj : (Conf.start h0 calls).ts[j]? = some { todo := .insert y :: m } := by simp [Conf.start, hj]
  have li := (List.getElem?_eq_some_iff.1 ti).1
  have lj := (List.getElem?_eq_some_iff.1 tj).1
  -- both goroutines find the node missing
  obtain ⟨is1, e1⟩ := run_make (c := Conf.start h0 calls) ti rfl rfl kx hkn (by rw [sx]; exact hw) hd hg
  generalize hts1 : (Conf.start h0 calls).ts.set i _ = ts1 at e1
  have tj1 : ts1[j]? = some { todo := .insert y :: m } := by rw [← hts1, ← tj]; exact List.getElem?_set_ne hij
  have ti1 : ts1[i]? = some { todo := l, cur := some (.insert x, .make x n k bx) } := by
    rw [← hts1]; exact List.getElem?_set_self li
  obtain ⟨is2, e2⟩ := run_make (c := { heap := h0, ts := ts1 }) tj1 rfl rfl ky hkn (by rw [sy]; exact hw) hd hg
  generalize hts2 : ts1.set j _ = ts2 at e2
  have ti2 : ts2[i]? = some { todo := l, cur := some (.insert x, .make x n k bx) } := by
    rw [← hts2, ← ti1]; exact List.getElem?_set_ne (fun h => hij h.symm)
  have tj2 : ts2[j]? = some { todo := m, cur := some (.insert y, .make y n k bY) } := by
    rw [← hts2]; exact List.getElem?_set_self (List.getElem?_eq_some_iff.1 tj1).1
  -- the first creates it and finishes
  have li2 := (List.getElem?_eq_some_iff.1 ti2).1
  have e3 : Conf.run keys { heap := h0, ts := ts2 } [i] = some { heap := h0.grow n k, ts := ts2.set i { todo := l, cur := some (.insert x, .down x h0.length bx) } } := by
    simp [Conf.run, Conf.step, ti2, Spot.step, Heap.grow]
  obtain ⟨n1, e4⟩ := run_ins (keys := keys) (x := x) bx (h0.grow n k) h0.length
    (ts2.set i { todo := l, cur := some (.insert x, .down x h0.length bx) }) i _
    (closed_grow (closed_good g) n k) (by rw [length_grow]; omega) (List.getElem?_set_self li2) rfl
  rw [List.set_set] at e4
  generalize hh4 : ins x (h0.grow n k) h0.length bx = h4 at e4
  generalize hts4 : ts2.set i { todo := l, cur := none, out := [] ++ [(.insert x, [])] } = ts4 at e4
  have tj4 : ts4[j]? = some { todo := m, cur := some (.insert y, .make y n k bY) } := by
    rw [← hts4, ← tj2]; exact List.getElem?_set_ne hij
  have ti4 : ts4[i]? = some { todo := l, out := [(.insert x, [])] } := by
    rw [← hts4]; exact List.getElem?_set_self li2
  have lj4 := (List.getElem?_eq_some_iff.1 tj4).1
  -- the second replaces it
  have e5 : Conf.run keys { heap := h4, ts := ts4 } [j] = some { heap := h4.grow n k, ts := ts4.set j { todo := m, cur := some (.insert y, .down y h4.length bY) } } := by
    simp [Conf.run, Conf.step, tj4, Spot.step, Heap.grow]
  have E4 : (Conf.start h0 calls).run keys (is1 ++ (is2 ++ ([i] ++ List.replicate n1 i))) = some { heap := h4, ts := ts4 } := by
    rw [run_then, e1, Option.bind_some, run_then, show (Conf.start h0 calls).heap = h0 from rfl, e2, Option.bind_some,
      run_then, e3, Option.bind_some, e4]
  have E5 := run_then (keys := keys) (c := Conf.start h0 calls) (is1 ++ (is2 ++ ([i] ++ List.replicate n1 i))) [j]
  rw [E4, Option.bind_some, e5] at E5
  obtain ⟨path, v⟩ := inv_run g E5
  have good5 : (h4.grow n k).Good keys := by
    refine good_quiet g E5 fun t ht call z a hc => ?_
    rcases mem_set_ts ht with rfl | ht
    · cases hc
    · rw [← hts4] at ht
      rcases mem_set_ts ht with rfl | ht
      · cases hc
      · rw [← hts2] at ht
        rcases mem_set_ts ht with rfl | ht
        · cases hc
        · rw [← hts1] at ht
          rcases mem_set_ts ht with rfl | ht
          · cases hc
          · obtain ⟨_, _, rfl⟩ := List.mem_map.1 ht
            cases hc
  have hw4 : (h4.grow n k).walk q 0 = some n := v.since.walk q 0 n hw
  have hn4 : n < h4.length := by
    obtain ⟨_, v4⟩ := inv_run g E4
    exact Nat.lt_of_lt_of_le (lt_of_get hd) v4.since.len
  obtain ⟨d4, hd4⟩ := get_of_lt hn4
  have hk5 : (h4.grow n k).walk (strip (ay ++ [k])) 0 = some h4.length := by
    rw [show strip (ay ++ [k]) = q ++ [k] by rw [← sy]; simp [strip, hkn], walk_append, hw4, Option.bind_some,
      walk_one (grow_get hd4), if_pos rfl, GoMap.get_set, if_pos rfl]
  obtain ⟨n2, e6⟩ := run_ins (keys := keys) (x := y) bY (h4.grow n k) h4.length
    (ts4.set j { todo := m, cur := some (.insert y, .down y h4.length bY) }) j _
    (closed_good good5) (by rw [length_grow]; omega) (List.getElem?_set_self lj4) rfl
  have hins : ins y (h4.grow n k) h4.length bY = ins y (h4.grow n k) 0 (keys y) := by
    rw [ky, show ay ++ k :: bY = (ay ++ [k]) ++ bY by simp, ins_down _ _ _ hk5]
  rw [List.set_set, hins] at e6
  have E6 := run_then (keys := keys) (c := Conf.start h0 calls) (is1 ++ (is2 ++ ([i] ++ List.replicate n1 i)) ++ [j])
    (List.replicate n2 j)
  rw [E5, Option.bind_some, e6] at E6
  refine ⟨_, _, { todo := l, out := [(.insert x, [])] }, { todo := m, out := [(.insert y, [])] }, E6, ?_, ?_, rfl, rfl, ?_, ?_⟩
  · rw [← ti4]; exact List.getElem?_set_ne (fun h => hij h.symm)
  · exact List.getElem?_set_self lj4
  · show (ins y (h4.grow n k) 0 (keys y)).row _ = none
    rw [row_ins good5]
    simp only [put, if_neg (Ne.symm hxy)]
    rw [← hx]
    unfold Heap.row
    rw [show q ++ k :: (r ++ rx) = (q ++ [k]) ++ (r ++ rx) by simp, walk_append,
      show q ++ [k] = strip (ay ++ [k]) by rw [← sy]; simp [strip, hkn], hk5, Option.bind_some]
    cases r ++ rx with
    | nil => simp [Heap.walk, grow_new, Cell.new]
    | cons a b => simp [Heap.walk, grow_new, Cell.new, GoMap.get]
  · show (ins y (h4.grow n k) 0 (keys y)).row _ = _
    rw [row_ins good5]
    simp [put]

abbrev rowU : Data := { tenant := .str (str "u"), scope := .str (str "a") }
abbrev rowV : Data := { tenant := .str (str "u"), scope := .str (str "b") }

/-- Two goroutines insert rows of a tenant that the trie, which has another tenant, does not know yet;
a third searches. -/
example : ∃ is c t u, (Conf.start heapT [[.insert rowU, .insert rowT], [.search askAll],
      [.insert rowV]]).run dkeys is = some c ∧ c.ts[0]? = some t ∧ c.ts[2]? = some u ∧
    t.out = [(.insert rowU, [])] ∧ u.out = [(.insert rowV, [])] ∧ c.heap.row (key dkeys rowU) = none ∧
      c.heap.row (key dkeys rowV) = some rowV :=
  C88_lost good_heapT (p := [.str (str "u")]) (show 0 ≠ 2 by decide) rfl rfl
    ⟨[.str (str "a")], by decide +kernel⟩ ⟨[.str (str "b")], by decide +kernel⟩ (by decide +kernel) (by decide +kernel)

end TC
end Verif
