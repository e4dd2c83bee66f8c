import Verif.Lemmas.TrieConcRun
import Verif.Model.Data

/-!
# The trie of the root package used by several goroutines at once (C88, C89)

`RoleManager.AddData` is `trie.Insert` (role_manager.go:108-110), and every question the manager
answers is a `search`. Nothing but the child maps of the trie is synchronised.
-/

namespace Verif
namespace TC
variable {T : Type}

/-! ## C88: insertions at the same time -/

/-- Whatever goroutines do, a row in the trie is under its own identity, and is a row that was there
before or one whose insertion has begun. -/
theorem C88_sound {keys : T → List Val} {h0 : Heap T} (g : h0.Good keys) {calls : List (List (Call T))}
    {is : List Nat} {c : Conf T} (e : (Conf.start h0 calls).run keys is = some c)
    (p : List Val) (x : T) (hx : c.heap.row p = some x) :
    key keys x = p ∧ (h0.row p = some x ∨ c.Begun x) := by
  obtain ⟨path, v⟩ := inv_run g e
  unfold Heap.row at hx
  rw [Option.bind_eq_some_iff] at hx
  obtain ⟨n, hn, hx⟩ := hx
  rw [Option.bind_eq_some_iff] at hx
  obtain ⟨a, ha, hx⟩ := hx
  constructor
  · rw [v.shape.data n a x ha hx, walk_path v.shape p 0 n hn, v.shape.root, List.nil_append]
  · rcases v.origin n a x ha hx with ⟨c0, h1, h2⟩ | hb
    · left
      obtain ⟨_, h3⟩ := v.since.back p 0 n hn (lt_of_get h1)
      simp only [Heap.row, h3, Option.bind_some, h1, h2]
    · exact Or.inr hb

/-- A row that is there when the goroutines start stays there, whatever they do, unless one of them
inserts a row of the same identity. -/
theorem C88_safe {keys : T → List Val} {h0 : Heap T} (g : h0.Good keys) {calls : List (List (Call T))}
    {is : List Nat} {c : Conf T} (e : (Conf.start h0 calls).run keys is = some c)
    (p : List Val) (x : T) (hx : h0.row p = some x) (hno : ∀ y, c.Begun y → key keys y ≠ p) :
    c.heap.row p = some x := by
  have hp := (C88_sound g (is := []) (calls := calls) (c := .start h0 calls) rfl p x hx).1
  obtain ⟨path, v⟩ := inv_run g e
  unfold Heap.row at hx
  rw [Option.bind_eq_some_iff] at hx
  obtain ⟨n, hn, hx⟩ := hx
  rw [Option.bind_eq_some_iff] at hx
  obtain ⟨a, ha, hx⟩ := hx
  obtain ⟨b, hb, hbx⟩ := v.kept n a x ha hx (fun y hy => by rw [hp]; exact hno y hy)
  simp only [Heap.row, v.since.walk p 0 n hn, Option.bind_some, hb, hbx]

/-- When all goroutines have finished, the trie is at rest again. -/
theorem C88_good {keys : T → List Val} {h0 : Heap T} (g : h0.Good keys) {calls : List (List (Call T))}
    {is : List Nat} {c : Conf T} (e : (Conf.start h0 calls).run keys is = some c) (d : c.Done) :
    c.heap.Good keys := by
  obtain ⟨path, v⟩ := inv_run g e
  have hp : Pend c := by
    refine run_inv (P := Pend) (fun _ _ _ h e => pend_step h e) is ?_ e
    obtain ⟨_, path0, _, hg⟩ := g
    intro n a ha hm
    left
    rw [← (hg n a ha).2.2.2]; exact hm
  refine ⟨v.shape.pos, path, v.shape.root, fun n a ha => ⟨v.shape.wf n a ha,
    fun k m hk => v.shape.kid n a k m ha hk, fun x hx => v.shape.data n a x ha hx, ?_⟩⟩
  rw [Bool.eq_iff_iff]
  constructor
  · intro hm
    rcases hp n a ha hm with h | ⟨t, ht, call, x, hc⟩
    · exact h
    · rw [(d t ht).1] at hc; cases hc
  · exact v.shape.mark n a ha

/-- When no two goroutines need the same new node, the trie is at every moment what it would be had
the insertions been made one at a time, in the order in which the rows were stored: each goroutine's
in the order of its calls, and none missing of the calls that have returned. -/
theorem C88_serial_partial {keys : T → List Val} {h0 : Heap T} (g : h0.Good keys)
    {calls : List (List (Call T))} (ap : Apart keys h0 calls)
    {is : List Nat} {c : Conf T} (e : (Conf.start h0 calls).run keys is = some c) :
    (∀ (i : Nat) (t : Thread T), c.ts[i]? = some t →
      storedBy i ((Conf.start h0 calls).stores keys is) = rows (t.out.map (·.1))) ∧
    c.heap.row = (((Conf.start h0 calls).stores keys is).map (·.2)).foldl (put keys) h0.row := by
  obtain ⟨path, v⟩ := serial_start g calls
  refine ⟨?_, serial_run ap is v e⟩
  intro i t ht
  have hprog := prog_run e i t ht
  have hs : (Conf.start h0 calls).ts[i]? = some { todo := t.begun ++ t.todo } := by
    simp only [Conf.start, List.getElem?_map, hprog, Option.map_some]
  obtain ⟨t', h1, h2⟩ := out_run is v.inv e i _ hs
  rw [ht] at h1; cases h1
  rw [h2]; simp [rows]

/-- The same, told with the sequential trie of `Model/Trie.lean`. -/
theorem C88_sequential_partial {keys : T → List Val} {h0 : Heap T} (g : h0.Good keys)
    {calls : List (List (Call T))} (ap : Apart keys h0 calls)
    {is : List Nat} {c : Conf T} (e : (Conf.start h0 calls).run keys is = some c)
    (t0 : Node T) (h0t : ∀ p, h0.row p = t0.find p) :
    ∀ p, c.heap.row p =
      ((((Conf.start h0 calls).stores keys is).map (·.2)).foldl (fun t x => t.insert x (keys x)) t0).find p := by
  rw [(C88_serial_partial g ap e).2]
  have h0f : h0.row = fun p => t0.find p := funext h0t
  rw [h0f]
  generalize ((Conf.start h0 calls).stores keys is).map (·.2) = l
  clear h0f h0t e
  induction l generalizing t0 with
  | nil => intro p; rfl
  | cons x l ih =>
    intro p
    simp only [List.foldl_cons]
    rw [← ih (t0.insert x (keys x)) p]
    have hput : put keys (fun p => t0.find p) x = fun p => (t0.insert x (keys x)).find p := by
      funext q
      simp only [put, Node.find_insert]
      rfl
    rw [hput]

theorem good_fresh (keys : T → List Val) : (Heap.fresh : Heap T).Good keys := by
  refine ⟨Nat.one_pos, fun _ => [], rfl, ?_⟩
  intro n a ha
  have : n = 0 := by
    have := lt_of_get ha
    simp only [Heap.fresh, List.length_singleton] at this
    omega
  subst this
  cases ha
  exact ⟨GoMap.wf_nil, nofun, nofun, rfl⟩

/-- Goroutines that only search, or a single goroutine, keep apart. -/
theorem C88_apart_alone (keys : T → List Val) (h0 : Heap T) (l : List (Call T)) (m : List (List (Call T)))
    (hm : ∀ k ∈ m, rows k = []) : Apart keys h0 (l :: m) := by
  intro i j a b hij ha hb x hx y hy
  exfalso
  cases i with
  | zero =>
    cases j with
    | zero => exact hij rfl
    | succ j => rw [hm b (List.mem_of_getElem? (i := j) (by simpa using hb))] at hy; cases hy
  | succ i => rw [hm a (List.mem_of_getElem? (i := i) (by simpa using ha))] at hx; cases hx

/-- The keys of a row of the manager. -/
abbrev dkeys (d : Data) : List Val := (dataKeys d).getD []

/-- The full claim: any goroutines inserting rows of the manager leave the trie as some order of the
insertions made one at a time leaves it. -/
def C88_full : Prop :=
  ∀ (h0 : Heap Data) (calls : List (List (Call Data))) (is : List Nat) (c : Conf Data), h0.Good dkeys →
    (Conf.start h0 calls).run dkeys is = some c → c.Done →
    ∃ l : List (Nat × Data),
      (∀ (i : Nat) (t : Thread Data), c.ts[i]? = some t → storedBy i l = rows (t.out.map (·.1))) ∧
      c.heap.row = (l.map (·.2)).foldl (put dkeys) h0.row

theorem put_isSome {keys : T → List Val} (x : T) : ∀ (l : List T) (s : List Val → Option T),
    (s (key keys x)).isSome ∨ x ∈ l → (l.foldl (put keys) s (key keys x)).isSome := by
  intro l
  induction l with
  | nil => rintro s (h | h); exacts [h, by cases h]
  | cons y l ih =>
    intro s h
    refine ih _ ?_
    by_cases hy : key keys y = key keys x
    · left; simp [put, hy]
    · rcases h with h | h
      · left; simpa [put, hy] using h
      · rcases List.mem_cons.1 h with rfl | h
        · exact absurd rfl hy
        · exact Or.inr h

section examples

/-- Two rows of a tenant the trie knows nothing of yet. -/
abbrev rowA : Data := { tenant := .str (str "t"), scope := .str (str "a") }
abbrev rowB : Data := { tenant := .str (str "t"), scope := .str (str "b") }

/-- Both goroutines look for the node of the tenant before either has made it: the second `Set` puts
an empty node over the one the first goroutine made, and the row stored below it is gone. -/
abbrev lostRun : List Nat := [0, 0, 1, 1] ++ List.replicate 9 0 ++ List.replicate 9 1

set_option synthInstance.maxSize 4000 in
set_option synthInstance.maxHeartbeats 200000 in
theorem C88_counterexample :
    ((Conf.start Heap.fresh [[.insert rowA], [.insert rowB]]).run dkeys lostRun).map (fun c =>
      (c.ts.map fun t => (t.cur.isNone, t.todo.length, t.out.length),
        c.heap.row (key dkeys rowA), c.heap.row (key dkeys rowB))) =
      some ([(true, 0, 1), (true, 0, 1)], none, some rowB) := by decide +kernel

theorem C88_full_false : ¬ C88_full := by
  intro hf
  have hc := C88_counterexample
  rw [Option.map_eq_some_iff] at hc
  obtain ⟨c, he, hv⟩ := hc
  simp only [Prod.mk.injEq] at hv
  obtain ⟨hts, hA, _⟩ := hv
  have hprog := prog_run he
  -- two goroutines, both finished
  have hlen : c.ts.length = 2 := by simpa using congrArg List.length hts
  have hall : ∀ t ∈ c.ts, t.cur = none ∧ t.todo = [] := by
    intro t ht
    have : (t.cur.isNone, t.todo.length, t.out.length) ∈ [(true, 0, 1), (true, 0, 1)] := by
      rw [← hts]; exact List.mem_map.2 ⟨t, ht, rfl⟩
    simp only [List.mem_cons, List.not_mem_nil, or_false, or_self, Prod.mk.injEq] at this
    exact ⟨by simpa using this.1, by simpa using this.2.1⟩
  obtain ⟨l, h1, h2⟩ := hf _ _ _ c (good_fresh dkeys) he hall
  obtain ⟨t, ht⟩ : ∃ t, c.ts[0]? = some t := ⟨c.ts[0], List.getElem?_eq_getElem (by omega)⟩
  have h3 := h1 0 t ht
  have h4 := hprog 0 t ht
  obtain ⟨h5, h6⟩ := hall t (List.mem_of_getElem? ht)
  simp only [Thread.begun, h5, h6, Option.toList_none, List.map_nil, List.append_nil,
    List.getElem?_cons_zero, Option.some.injEq] at h4
  rw [← h4] at h3
  have hmem : rowA ∈ l.map (·.2) := by
    have : rowA ∈ storedBy 0 l := by rw [h3]; simp [rows, Call.row]
    obtain ⟨e, he, hx⟩ := List.mem_map.1 this
    exact List.mem_map.2 ⟨e, (List.mem_filter.1 he).1, hx⟩
  have h7 := put_isSome (keys := dkeys) rowA _ (Heap.fresh.row) (Or.inr hmem)
  rw [← h2, hA] at h7
  cases h7

/-- A trie that knows the tenant already. -/
abbrev rowT : Data := { tenant := .str (str "t"), principal := .str (str "p") }

def heapT : Heap Data :=
  (((Conf.start Heap.fresh [[.insert rowT]]).run dkeys (List.replicate 11 0)).map (·.heap)).getD []

theorem good_of_run {calls : List (List (Call Data))} {is : List Nat} {h : Heap Data}
    (e : ((Conf.start Heap.fresh calls).run dkeys is).map (fun c =>
      (c.heap, c.ts.all fun t => t.cur.isNone && t.todo.isEmpty)) = some (h, true)) : h.Good dkeys := by
  rw [Option.map_eq_some_iff] at e
  obtain ⟨c, he, hv⟩ := e
  simp only [Prod.mk.injEq] at hv
  obtain ⟨rfl, hall⟩ := hv
  refine C88_good (good_fresh dkeys) he ?_
  intro t ht
  have := List.all_eq_true.1 hall t ht
  simpa using this

set_option synthInstance.maxSize 4000 in
set_option synthInstance.maxHeartbeats 200000 in
theorem good_heapT : heapT.Good dkeys :=
  good_of_run (calls := [[.insert rowT]]) (is := List.replicate 11 0) (by decide +kernel)

/-- With the node of the tenant there, the same two insertions keep apart. -/
theorem apart_heapT : Apart dkeys heapT [[.insert rowA], [.insert rowB]] := by
  have hA : key dkeys rowA = [.str (str "t"), .str (str "a")] := by decide +kernel
  have hB : key dkeys rowB = [.str (str "t"), .str (str "b")] := by decide +kernel
  have hw : (heapT.walk [.str (str "t")] 0).isSome := by decide +kernel
  have hab : str "a" ≠ str "b" := by decide +kernel
  have core : ∀ p : List Val, p <+: [.str (str "t"), .str (str "a")] → p <+: [.str (str "t"), .str (str "b")] →
      (heapT.walk p 0).isSome := by
    intro p h1 h2
    match p, h1, h2 with
    | [], _, _ => rfl
    | [v], h1, _ =>
      obtain ⟨s, hs⟩ := h1
      simp only [List.cons_append, List.nil_append, List.cons.injEq] at hs
      rw [hs.1]; exact hw
    | [v, w], h1, h2 =>
      obtain ⟨s, hs⟩ := h1
      obtain ⟨s', hs'⟩ := h2
      simp only [List.cons_append, List.nil_append, List.cons.injEq] at hs hs'
      have := hs.2.1.symm.trans hs'.2.1
      cases this
    | v :: w :: u :: r, h1, _ =>
      have := h1.length_le
      simp at this
  intro i j l m hij hl hm x hx y hy p hpx hpy
  match i, j with
  | 0, 0 => exact absurd rfl hij
  | 0, 1 =>
    cases hl; cases hm
    rw [mem_rows] at hx hy
    simp only [List.mem_singleton, Call.insert.injEq] at hx hy
    subst hx; subst hy
    exact core p (hA ▸ hpx) (hB ▸ hpy)
  | 1, 0 =>
    cases hl; cases hm
    rw [mem_rows] at hx hy
    simp only [List.mem_singleton, Call.insert.injEq] at hx hy
    subst hx; subst hy
    exact core p (hA ▸ hpy) (hB ▸ hpx)
  | 1, 1 => exact absurd rfl hij
  | 0, j + 2 => simp at hm
  | 1, j + 2 => simp at hm
  | i + 2, _ => simp at hl

/-- Both rows are there at the end, whatever the order of the steps; here they take turns. -/
example : ((Conf.start heapT [[.insert rowA], [.insert rowB]]).run dkeys
    ((List.replicate 10 [0, 1]).flatten)).map (fun c =>
      (c.heap.row (key dkeys rowA), c.heap.row (key dkeys rowB), c.heap.row (key dkeys rowT))) =
    some (some rowA, some rowB, some rowT) := by decide +kernel

end examples

/-! ## C89: a search while rows are inserted -/

/-- Every row a search returns was there before the goroutines started, or is one whose insertion
has begun; no identity is returned twice; and a search for one row returns one at most. -/
theorem C89_sound {keys : T → List Val} {h0 : Heap T} (g : h0.Good keys) {calls : List (List (Call T))}
    {is : List Nat} {c : Conf T} (e : (Conf.start h0 calls).run keys is = some c)
    (t : Thread T) (ht : t ∈ c.ts) (q : Query T) (res : List (Option T)) (hr : (Call.search q, res) ∈ t.out) :
    (∀ x, some x ∈ res → (∃ p, h0.row p = some x) ∨ c.Begun x) ∧
    ((res.filterMap id).map (key keys)).Nodup ∧ (q.stop = true → res.length ≤ 1) := by
  obtain ⟨⟨path, v⟩, w⟩ := run_inv (P := fun c => (∃ path, Inv keys h0 c path) ∧ Ones c)
    (fun _ _ _ ⟨⟨_, v⟩, w⟩ e => ⟨(inv_step v e).imp fun _ h => h.1, ones_step v w e⟩) is
    ⟨inv_start g calls, by
      have hc : ∀ t ∈ (Conf.start h0 calls).ts, t.cur = none ∧ t.out = [] := by
        intro t ht
        simp only [Conf.start, List.mem_map] at ht
        obtain ⟨l, _, rfl⟩ := ht
        exact ⟨rfl, rfl⟩
      constructor
      · intro t ht call s h; rw [(hc t ht).1] at h; cases h
      · intro t ht q res h; rw [(hc t ht).2] at h; cases h⟩ e
  obtain ⟨h1, h2⟩ := v.out t ht _ hr
  exact ⟨h1, h2, w.out t ht q res hr⟩

/-- A search returns every matching row that is there all the time, whatever is inserted meanwhile; a
search that stops at the first row returns a row if there is such a row. -/
theorem C89_complete {keys : T → List Val} {h0 : Heap T} (g : h0.Good keys) {calls : List (List (Call T))}
    {is : List Nat} {c : Conf T} (e : (Conf.start h0 calls).run keys is = some c)
    (t : Thread T) (ht : t ∈ c.ts) (q : Query T) (res : List (Option T)) (hr : (Call.search q, res) ∈ t.out)
    (p : List Val) (x : T) (hx : h0.row p = some x)
    (hno : ∀ l ∈ calls, ∀ y ∈ rows l, key keys y ≠ p) (hq : q.cb (some x) = .ok true) :
    if q.stop then res ≠ [] else some x ∈ res := by
  have hp := (C88_sound g (is := []) (calls := calls) (c := .start h0 calls) rfl p x hx).1
  unfold Heap.row at hx
  rw [Option.bind_eq_some_iff] at hx
  obtain ⟨r, hw, hx⟩ := hx
  rw [Option.bind_eq_some_iff] at hx
  obtain ⟨c0, hc0, hx⟩ := hx
  have hall : Finds h0 r x c := by
    refine (run_inv (P := fun c => (∃ path, Inv keys h0 c path) ∧
      (∀ (j : Nat) (t : Thread T), c.ts[j]? = some t → calls[j]? = some (t.begun ++ t.todo)) ∧
      Finds h0 r x c) ?_ is ?_ e).2.2
    · rintro c c' i ⟨⟨path, v⟩, hp2, f⟩ e
      obtain ⟨path', v', _⟩ := inv_step v e
      refine ⟨⟨path', v'⟩, prog_step hp2 e, finds_step hw hc0 hx ?_ v f e⟩
      intro y hy
      obtain ⟨l, hl, hy⟩ := begun_mem hp2 hy
      rw [hp]; exact hno l hl y hy
    · refine ⟨inv_start g calls, prog_start h0 calls, ?_, ?_⟩
      · intro t ht call s hs
        simp only [Conf.start, List.mem_map] at ht
        obtain ⟨l, _, rfl⟩ := ht
        cases hs
      · intro t ht en hen
        simp only [Conf.start, List.mem_map] at ht
        obtain ⟨l, _, rfl⟩ := ht
        cases hen
  rcases hall.out t ht _ hr with ⟨h, h'⟩ | h | h
  · rw [if_pos h]; exact h'
  · exact absurd hq h
  · split
    · rintro rfl; cases h
    · exact h

/-- While nobody inserts, searches return exactly the matching rows, each once, or one of them; and
they leave the trie as it is. -/
theorem C89_readers {keys : T → List Val} {h0 : Heap T} (g : h0.Good keys) {calls : List (List (Call T))}
    (hi : ∀ l ∈ calls, rows l = []) (hq : ∀ l ∈ calls, ∀ q, Call.search q ∈ l → ∀ x, ∃ b, q.cb (some x) = .ok b)
    {is : List Nat} {c : Conf T} (e : (Conf.start h0 calls).run keys is = some c) :
    c.heap = h0 ∧ ∀ t ∈ c.ts, (∀ call, t.cur ≠ some (call, .dead)) ∧
      ∀ q res, (Call.search q, res) ∈ t.out →
        (∀ d ∈ res, ∃ p x, d = some x ∧ h0.row p = some x ∧ q.cb (some x) = .ok true) ∧
        ((res.filterMap id).map (key keys)).Nodup ∧
        if q.stop then res.length ≤ 1 ∧ (res = [] → ∀ p x, h0.row p = some x → q.cb (some x) ≠ .ok true)
        else ∀ p x, h0.row p = some x → q.cb (some x) = .ok true → some x ∈ res := by
  have hstart : ∀ t ∈ (Conf.start h0 calls).ts, t.cur = none ∧ t.out = [] := by
    intro t ht
    simp only [Conf.start, List.mem_map] at ht
    obtain ⟨l, _, rfl⟩ := ht
    exact ⟨rfl, rfl⟩
  let P : Conf T → Prop := fun c => (∃ path, Inv keys h0 c path) ∧
      (∀ (j : Nat) (t : Thread T), c.ts[j]? = some t → calls[j]? = some (t.begun ++ t.todo)) ∧ c.heap = h0 ∧
      (∀ t ∈ c.ts, ∀ call s, t.cur = some (call, s) → Reads h0 s) ∧
      ∀ t ∈ c.ts, ∀ q res, (Call.search q, res) ∈ t.out → ∀ d ∈ res, ∃ x, d = some x ∧ q.cb d = .ok true
  have hP : ∀ c c' i, P c → c.step keys i = some c' → P c' := by
    rintro c c' i ⟨⟨path, v⟩, hp, hh, hcur, hout⟩ e
    refine ⟨(inv_step v e).imp fun _ h => h.1, prog_step hp e, ?_⟩
    obtain ⟨t, t', ht, hts, hk⟩ := conf_step e
    have hm : t ∈ c.ts := List.mem_of_getElem? ht
    obtain ⟨_, _, _, hg⟩ := g
    have hfirm : ∀ (n : Nat) (a : Cell T), h0[n]? = some a → a.isEnd = a.data.isSome := fun n a ha => (hg n a ha).2.2.2
    -- every call is a search
    have hall : ∀ call ∈ t.begun ++ t.todo, ∃ q, call = .search q ∧ ∀ x, ∃ b, q.cb (some x) = .ok b := by
      intro call hc
      have hl := List.mem_of_getElem? (hp i t ht)
      cases call with
      | insert x =>
        have : x ∈ rows (t.begun ++ t.todo) := (mem_rows).2 hc
        rw [hi _ hl] at this; cases this
      | search q => exact ⟨q, rfl, hq _ hl q hc⟩
    have hthr : (∀ call s, t'.cur = some (call, s) → Reads h0 s) →
        (∀ q res, (Call.search q, res) ∈ t'.out → ∀ d ∈ res, ∃ x, d = some x ∧ q.cb d = .ok true) →
        (∀ t ∈ c'.ts, ∀ call s, t.cur = some (call, s) → Reads h0 s) ∧
        ∀ t ∈ c'.ts, ∀ q res, (Call.search q, res) ∈ t.out → ∀ d ∈ res, ∃ x, d = some x ∧ q.cb d = .ok true := by
      intro h1 h2
      constructor
      · intro u hu
        rw [hts] at hu
        rcases mem_set_ts hu with rfl | hu
        · exact h1
        · exact hcur u hu
      · intro u hu
        rw [hts] at hu
        rcases mem_set_ts hu with rfl | hu
        · exact h2
        · exact hout u hu
    have hspot : ∀ call s, t.cur = some (call, s) → ∃ q0 : Query T, call = .search q0 ∧ (∀ x, ∃ b, q0.cb (some x) = .ok b) ∧
        ∀ (q : Query T), (∃ todo res, s = .enter q todo res) ∨ (∃ n todo res, s = .test q n todo res) ∨
          (∃ n todo res, s = .take q n todo res) ∨ (∃ n todo res, s = .spread q n todo res) → q = q0 := by
      intro call s hc
      obtain ⟨q0, rfl, hq0⟩ := hall call (List.mem_append_left _ (by simp [Thread.begun, hc]))
      refine ⟨q0, rfl, hq0, ?_⟩
      have o := v.spot t hm _ s hc
      rintro q (⟨_, _, rfl⟩ | ⟨_, _, _, rfl⟩ | ⟨_, _, _, rfl⟩ | ⟨_, _, _, rfl⟩) <;>
        exact (Call.search.inj o.1).symm
    rcases hk with ⟨call, rest, h1, h2, hh', rfl⟩ | ⟨call, s, s', h1, h2, rfl⟩ | ⟨call, s, res, h1, h2, rfl⟩
    · refine ⟨hh'.trans hh, hthr ?_ (hout t hm)⟩
      intro call' s hs
      cases hs
      obtain ⟨q, rfl, _⟩ := hall call (List.mem_append_right _ (by rw [h2]; exact List.mem_cons_self))
      exact fun d hd => by cases hd
    · rw [hh] at h2
      obtain ⟨q0, rfl, hq0, hu⟩ := hspot call s h1
      obtain ⟨h3, h4, _⟩ := reads_step hfirm hu hq0 (hcur t hm _ s h1) h2
      refine ⟨h3, hthr ?_ (hout t hm)⟩
      intro call' s2 hs
      cases hs
      exact h4 s' rfl
    · rw [hh] at h2
      obtain ⟨q0, rfl, hq0, hu⟩ := hspot call s h1
      obtain ⟨h3, _, h4⟩ := reads_step hfirm hu hq0 (hcur t hm _ s h1) h2
      refine ⟨h3, hthr (fun call' s2 hs => by cases hs) ?_⟩
      intro q res' hen
      rcases List.mem_append.1 hen with hen | hen
      · exact hout t hm q res' hen
      · simp only [List.mem_singleton, Prod.mk.injEq, Call.search.injEq] at hen
        obtain ⟨rfl, rfl⟩ := hen
        exact h4 _ rfl
  have hI := run_inv (keys := keys) (P := P)
    hP is ⟨inv_start g calls, prog_start h0 calls, rfl, (fun t ht call s h => by rw [(hstart t ht).1] at h; cases h),
      (fun t ht q res h => by rw [(hstart t ht).2] at h; cases h)⟩ e
  obtain ⟨_, _, hh, hcur, hout⟩ := hI
  refine ⟨hh, fun t ht => ⟨fun call h => hcur t ht call _ h, fun q res hr => ?_⟩⟩
  obtain ⟨h1, h2, h3⟩ := C89_sound g e t ht q res hr
  have hnob : ∀ x, ¬ c.Begun x := by
    intro x hb
    obtain ⟨l, hl, hx⟩ := begun_mem (prog_run e) hb
    rw [hi l hl] at hx; cases hx
  have hcomp := fun p x hx => C89_complete g e t ht q res hr p x hx (fun l hl y hy => by rw [hi l hl] at hy; cases hy)
  refine ⟨fun d hd => ?_, h2, ?_⟩
  · obtain ⟨x, rfl, hcb⟩ := hout t ht q res hr d hd
    rcases h1 x hd with ⟨p, hp⟩ | hb
    · exact ⟨p, x, rfl, hp, hcb⟩
    · exact absurd hb (hnob x)
  · split
    · rename_i hst
      refine ⟨h3 hst, fun hn p x hx hcb => ?_⟩
      have := hcomp p x hx hcb
      rw [if_pos hst] at this
      exact this hn
    · rename_i hst
      intro p x hx hcb
      have := hcomp p x hx hcb
      rwa [if_neg hst] at this

/-- While rows are only replaced by rows of the same identity, and the callback looks at nothing but
the identity, no search panics, and every row a search returns matches. -/
theorem C89_exact_partial {keys : T → List Val} {h0 : Heap T} (g : h0.Good keys)
    {calls : List (List (Call T))} (rp : Replaces keys h0 calls)
    (hq : ∀ l ∈ calls, ∀ q, Call.search q ∈ l → q.Fair keys)
    {is : List Nat} {c : Conf T} (e : (Conf.start h0 calls).run keys is = some c)
    (t : Thread T) (ht : t ∈ c.ts) :
    (∀ call, t.cur ≠ some (call, .dead)) ∧
    ∀ q res, (Call.search q, res) ∈ t.out → ∀ d ∈ res, ∃ x, d = some x ∧ q.cb (some x) = .ok true := by
  have hcalm : ∃ path, Calm keys h0 calls c path := by
    refine run_inv (P := fun c => ∃ path, Calm keys h0 calls c path)
      (fun _ _ _ ⟨_, v⟩ e => calm_step rp hq v e) is ?_ e
    obtain ⟨path, v⟩ := inv_start g calls
    obtain ⟨_, path0, _, hg⟩ := g
    refine ⟨path, v, prog_start h0 calls, fun n a ha => (hg n a ha).2.2.2, fun n a ha hd => ⟨a, ha, hd⟩, ?_, ?_⟩
    · intro t ht call s hs
      simp only [Conf.start, List.mem_map] at ht
      obtain ⟨l, _, rfl⟩ := ht
      cases hs
    · intro t ht en hen
      simp only [Conf.start, List.mem_map] at ht
      obtain ⟨l, _, rfl⟩ := ht
      cases hen
  obtain ⟨path, v⟩ := hcalm
  refine ⟨fun call hc => v.cur t ht call .dead hc, ?_⟩
  intro q res hr d hd
  obtain ⟨x, rfl, hx⟩ := v.out t ht _ hr q rfl d hd
  exact ⟨x, rfl, hx⟩

/-- The search `Search(filter)` of the manager (trie/trie.go:98-100 with `FilterFunc`): the callback
reads through the row pointer, so a nil row panics. -/
abbrev ask (filter : Data) : Query Data where
  ord := .fwd
  cb
    | none => .panic
    | some row => .ok (filterFunc filter row)
  stop := false

/-- `Data()` (trie/trie.go:135-138). -/
abbrev askAll : Query Data where
  ord := .fwd
  cb _ := .ok true
  stop := false

/-- The full claim: searches of the manager's rows never panic, and return rows that match. -/
def C89_full : Prop :=
  ∀ (h0 : Heap Data) (calls : List (List (Call Data))) (is : List Nat) (c : Conf Data), h0.Good dkeys →
    (Conf.start h0 calls).run dkeys is = some c → ∀ t ∈ c.ts,
    (∀ call, t.cur ≠ some (call, .dead)) ∧
    ∀ filter res, (Call.search (ask filter), res) ∈ t.out →
      ∀ d ∈ res, ∃ x, d = some x ∧ filterFunc filter x = true

section examples

def Spot.isDead : Spot T → Bool
  | .dead => true
  | _ => false

/-- A search reaches a node that `Insert` has marked but not given its row yet: the callback is given
nil and panics. -/
theorem C89_panic_counterexample :
    ((Conf.start Heap.fresh [[.insert rowA], [.search (ask rowA)]]).run dkeys
      (List.replicate 10 0 ++ List.replicate 7 1)).map (fun c =>
        c.ts.map fun t => t.cur.map fun s => s.2.isDead) = some [some false, some true] := by decide +kernel

/-- The same with `Data()`, which returns a nil row. -/
theorem C89_nil_counterexample :
    ((Conf.start Heap.fresh [[.insert rowA], [.search askAll]]).run dkeys
      (List.replicate 10 0 ++ List.replicate 10 1)).map (fun c =>
        c.ts.map fun t => t.out.map (·.2)) = some [[], [[none]]] := by decide +kernel

/-- A row with a namespace, and one with a scope of the same name: one identity. -/
abbrev rowN : Data := { tenant := .str (str "t"), namespace_ := .str (str "a") }

def heapN : Heap Data :=
  (((Conf.start Heap.fresh [[.insert rowN]]).run dkeys (List.replicate 11 0)).map (·.heap)).getD []

/-- The callback has accepted the row with the namespace; before it is taken, the row is replaced by
the one with the scope, which the search then returns though it does not match. -/
theorem C89_wrong_counterexample :
    ((Conf.start heapN [[.insert rowA], [.search (ask rowN)]]).run dkeys
      (List.replicate 8 0 ++ List.replicate 7 1 ++ [0] ++ List.replicate 3 1)).map (fun c =>
        c.ts.map fun t => t.out.map (·.2)) = some [[[]], [[some rowA]]] ∧
    filterFunc rowN rowA = false := by decide +kernel

theorem C89_full_false : ¬ C89_full := by
  intro hf
  have hc := C89_panic_counterexample
  rw [Option.map_eq_some_iff] at hc
  obtain ⟨c, he, hv⟩ := hc
  have hlen : c.ts.length = 2 := by simpa using congrArg List.length hv
  have ht : c.ts[1]? = some c.ts[1] := List.getElem?_eq_getElem (by omega)
  have h1 := congrArg (fun l => l[1]?) hv
  simp only [List.getElem?_map, ht, Option.map_some, List.getElem?_cons_succ, List.getElem?_cons_zero,
    Option.some.injEq] at h1
  rw [Option.map_eq_some_iff] at h1
  obtain ⟨⟨call, s⟩, h2, h3⟩ := h1
  cases s with
  | dead => exact ((hf _ _ _ c (good_fresh dkeys) he _ (List.mem_of_getElem? ht)).1 call) h2
  | _ => cases h3

/-- The hypotheses of `C89_exact_partial` met: a row is inserted again while all rows are asked for. -/
example : heapN.Good dkeys ∧ Replaces dkeys heapN [[.insert rowN], [.search (ask {})]] ∧
    (ask {}).Fair dkeys := by
  refine ⟨good_of_run (calls := [[.insert rowN]]) (is := List.replicate 11 0) (by decide +kernel), ?_, ?_, ?_⟩
  · intro l hl x hx
    simp only [List.mem_cons, List.not_mem_nil, or_false] at hl
    rcases hl with rfl | rfl
    · rw [mem_rows] at hx
      simp only [List.mem_singleton, Call.insert.injEq] at hx
      subst hx
      decide +kernel
    · cases hx
  · exact fun x => ⟨_, rfl⟩
  · exact fun _ _ _ => rfl

/-- A search beside two insertions, in a trie that has a row already: the row is found. -/
example :
    ((Conf.start heapT [[.insert rowA], [.insert rowB], [.search (ask rowT)]]).run dkeys
      (List.replicate 6 0 ++ List.replicate 6 1 ++ [2, 2, 2] ++ List.replicate 4 0 ++ List.replicate 12 2)).map (fun c =>
        (c.ts.map fun t => t.out.map (·.2))) = some [[[]], [], [[some rowT]]] := by decide +kernel

/-- Two searches beside each other, nobody inserts: one for all rows, one for the first. -/
example :
    ((Conf.start heapT [[.search (ask rowT)], [.search { ask {} with stop := true }]]).run dkeys
      ((List.replicate 8 [0, 1]).flatten ++ [0, 0])).map (fun c =>
        (c.heap, c.ts.map fun t => t.out.map (·.2))) = some (heapT, [[[some rowT]], [[some rowT]]]) := by
  decide +kernel

end examples

end TC
end Verif
