import Verif.Model.TrieRace
import Verif.Props.ConcEnd

/-!
# Data races on the trie of the root package (C108)
-/

namespace Verif
namespace TC
variable {T : Type}

/-- A race on the trie: goroutine `i` inserts a row, and goroutine `j` inserts one with the same identity,
or searches. -/
theorem C108_only {keys : T → List Val} {h0 : Heap T} (g : h0.Good keys) {calls : List (List (Call T))}
    {is : List Nat} {c : Conf T} (e : (Conf.start h0 calls).run keys is = some c) {i j : Nat}
    (r : c.RaceBy i j) :
    i ≠ j ∧ ∃ l m x, calls[i]? = some l ∧ calls[j]? = some m ∧ Call.insert x ∈ l ∧
      ((∃ y, Call.insert y ∈ m ∧ key keys y = key keys x) ∨ ∃ q, Call.search q ∈ m) := by
  obtain ⟨path, v⟩ := inv_run g e
  obtain ⟨hij, t, u, f, b, ht, hu, pt, pu⟩ := r
  simp only [Thread.plain, Option.bind_eq_some_iff] at pt pu
  obtain ⟨⟨call, s⟩, hc, pt⟩ := pt
  obtain ⟨⟨call', s'⟩, hc', pu⟩ := pu
  have o := v.spot t (List.mem_of_getElem? ht) call s hc
  have o' := v.spot u (List.mem_of_getElem? hu) call' s' hc'
  have m := prog_run e i t ht
  have m' := prog_run e j u hu
  have hin : call ∈ t.begun ++ t.todo := List.mem_append_left _ (by simp [Thread.begun, hc])
  have hin' : call' ∈ u.begun ++ u.todo := List.mem_append_left _ (by simp [Thread.begun, hc'])
  -- the writer stands at the node of its row
  have w : ∃ x n, call = .insert x ∧ path n = key keys x ∧ (f = .isEnd n ∨ f = .data n) := by
    cases s with
    | down x n ks =>
      cases ks with
      | nil =>
        simp only [Spot.plain, Option.some.injEq, Prod.mk.injEq, and_true] at pt
        exact ⟨x, n, o.1, by simpa [strip] using o.2.2, Or.inl pt.symm⟩
      | cons k ks => cases pt
    | save x n =>
      simp only [Spot.plain, Option.some.injEq, Prod.mk.injEq, and_true] at pt
      exact ⟨x, n, o.1, o.2.2.1, Or.inr pt.symm⟩
    | enter q todo res =>
      cases todo with
      | nil => cases pt
      | cons n todo => simp [Spot.plain] at pt
    | make x n k ks => cases pt
    | test q n todo res => simp [Spot.plain] at pt
    | take q n todo res => simp [Spot.plain] at pt
    | spread q n todo res => cases pt
    | dead => cases pt
  obtain ⟨x, n, rfl, hp, hf⟩ := w
  refine ⟨hij, _, _, x, m, m', hin, ?_⟩
  cases s' with
  | down y n' ks =>
    cases ks with
    | nil =>
      simp only [Spot.plain, Option.some.injEq, Prod.mk.injEq] at pu
      obtain ⟨o1, _, o3⟩ := o'
      subst o1
      have hn : n' = n := by
        rcases hf with hf | hf
        · have := pu.1.trans hf; injection this
        · have := pu.1.trans hf; cases this
      subst hn
      exact Or.inl ⟨y, hin', by rw [← hp, ← o3]; simp [strip]⟩
    | cons k ks => cases pu
  | save y n' =>
    simp only [Spot.plain, Option.some.injEq, Prod.mk.injEq] at pu
    obtain ⟨o1, _, o3, _⟩ := o'
    subst o1
    have hn : n' = n := by
      rcases hf with hf | hf
      · have := pu.1.trans hf; cases this
      · have := pu.1.trans hf; injection this
    subst hn
    exact Or.inl ⟨y, hin', by rw [← hp, ← o3]⟩
  | enter q todo res => obtain ⟨o1, _⟩ := o'; subst o1; exact Or.inr ⟨q, hin'⟩
  | test q n todo res => obtain ⟨o1, _⟩ := o'; subst o1; exact Or.inr ⟨q, hin'⟩
  | take q n todo res => obtain ⟨o1, _⟩ := o'; subst o1; exact Or.inr ⟨q, hin'⟩
  | make x n k ks => cases pu
  | spread q n todo res => cases pu
  | dead => cases pu

/-! ## Goroutines that run undisturbed -/

/-- The filters of all searches answer for every row, and return or panic without one. -/
def Replies (calls : List (List (Call T))) : Prop :=
  ∀ l ∈ calls, ∀ q, Call.search q ∈ l → (∀ x, ∃ b, q.cb (some x) = .ok b) ∧ q.cb none ≠ .diverge

/-- An insertion stands at a node of the tree; a child it is about to make is missing. -/
def Own (h : Heap T) : Spot T → Prop
  | .down _ n _ => ∃ p, h.walk p 0 = some n
  | .make _ n k _ => (∃ p, h.walk p 0 = some n) ∧ ∀ c : Cell T, h[n]? = some c → c.child.get k = none
  | .dead => False
  | _ => True

/-- Nobody but `i` is between a mark and its row, and `i` has not been disturbed. -/
structure Alone (keys : T → List Val) (h0 : Heap T) (calls : List (List (Call T))) (i : Nat) (c : Conf T) :
    Prop where
  inv : ∃ path, Inv keys h0 c path
  prog : ∀ (j : Nat) (t : Thread T), c.ts[j]? = some t → calls[j]? = some (t.begun ++ t.todo)
  pend : Pend c
  rest : ∀ (j : Nat) (t : Thread T), j ≠ i → c.ts[j]? = some t → ∀ call x n, t.cur ≠ some (call, .save x n)
  own : ∀ t : Thread T, c.ts[i]? = some t → ∀ call s, t.cur = some (call, s) → Own c.heap s

theorem alone_moves {keys : T → List Val} {h0 : Heap T} {calls : List (List (Call T))} {i : Nat} {c : Conf T}
    (hr : Replies calls) (a : Alone keys h0 calls i c) {t : Thread T} (ht : c.ts[i]? = some t)
    (hn : ¬ (t.cur = none ∧ t.todo = [])) : ∃ c', c.step keys i = some c' := by
  obtain ⟨path, v⟩ := a.inv
  unfold Conf.step
  simp only [ht]
  cases hc : t.cur with
  | none =>
    cases hr : t.todo with
    | nil => exact absurd ⟨hc, hr⟩ hn
    | cons call rest => exact ⟨_, rfl⟩
  | some cs =>
    obtain ⟨call, s⟩ := cs
    have hs := spot_moves (v.spot t (List.mem_of_getElem? ht) call s hc)
      (by rintro rfl; exact a.own t ht call _ hc) (by
      rintro q rfl d
      have := hr _ (List.mem_of_getElem? (a.prog i t ht)) q
        (List.mem_append_left _ (by simp [Thread.begun, hc]))
      cases d with
      | none => exact this.2
      | some x => obtain ⟨b, hb⟩ := this.1 x; rw [hb]; nofun)
    obtain ⟨⟨h, nx⟩, hs⟩ := Option.isSome_iff_exists.1 hs
    cases nx <;> simp [hs]

/-- A step of a goroutine that is alone keeps it so, and keeps every walk. -/
theorem alone_step {keys : T → List Val} {h0 : Heap T} {calls : List (List (Call T))} {i : Nat} {c c' : Conf T}
    (hr : Replies calls) (a : Alone keys h0 calls i c) (e : c.step keys i = some c') :
    Alone keys h0 calls i c' ∧ ∀ p n m, c.heap.walk p n = some m → c'.heap.walk p n = some m := by
  obtain ⟨path, v⟩ := a.inv
  obtain ⟨path', v', -⟩ := inv_step v e
  have pr' := prog_step a.prog e
  have pe' := pend_step a.pend e
  obtain ⟨t, t', ht, ht', ho, hk⟩ := ts_after e
  have hm : t ∈ c.ts := List.mem_of_getElem? ht
  have re' : ∀ (j : Nat) (u : Thread T), j ≠ i → c'.ts[j]? = some u → ∀ call x n, u.cur ≠ some (call, .save x n) := by
    intro j u hj hu
    rw [ho j hj] at hu
    exact a.rest j u hj hu
  suffices h : (∀ call s, t'.cur = some (call, s) → Own c'.heap s) ∧
      ∀ p n m, c.heap.walk p n = some m → c'.heap.walk p n = some m from
    ⟨⟨⟨_, v'⟩, pr', pe', re', fun u hu => by rw [ht'] at hu; cases hu; exact h.1⟩, h.2⟩
  rcases hk with ⟨call, rest, h1, h2, hh, rfl⟩ | ⟨call, s, s', h1, h2, rfl⟩ | ⟨call, s, res, h1, h2, rfl⟩
  · rw [hh]
    refine ⟨fun call' s hs => ?_, fun p n m h => h⟩
    cases hs
    cases call with
    | insert x => exact ⟨[], rfl⟩
    | search q => trivial
  · have o := v.spot t hm call s h1
    have w := a.own t ht call s h1
    have hw : ∀ p n m, c.heap.walk p n = some m → c'.heap.walk p n = some m := by
      rcases step_cases h2 with ⟨he, _⟩ | ⟨x, m, rfl, he, _⟩ | ⟨x, m, k, ks, rfl, he, _⟩ | ⟨x, m, rfl, he, _⟩
      · rw [he]; exact fun p n m h => h
      · rw [he]; intro p n r h; rw [walk_mark]; exact h
      · rw [he]; exact walk_grow w.2
      · rw [he]; intro p n r h; rw [walk_save]; exact h
    refine ⟨fun call' s2 hs => ?_, hw⟩
    cases hs
    generalize c'.heap = H at h2 hw ⊢
    cases s with
    | down x n ks =>
      obtain ⟨p, hp⟩ := w
      cases ks with
      | nil => cases h2; trivial
      | cons k ks =>
        simp only [Spot.step] at h2
        split at h2
        · cases h2; exact ⟨p, hp⟩
        · split at h2
          · cases h2
          · rename_i cell hcell
            split at h2
            · rename_i r hget
              injection h2 with h2
              injection h2 with hh h3
              injection h3 with h3
              subst h3
              rw [← hh]
              refine ⟨p ++ [k], ?_⟩
              rw [walk_append, hp]
              simpa [walk_one hcell] using hget
            · rename_i hget
              injection h2 with h2
              injection h2 with hh h3
              injection h3 with h3
              subst h3
              rw [← hh]
              refine ⟨⟨p, hp⟩, fun c1 hc1 => ?_⟩
              rw [hcell] at hc1; cases hc1; exact hget
    | make x n k ks =>
      obtain ⟨⟨p, hp⟩, hnone⟩ := w
      have hw' := hw p 0 n hp
      obtain ⟨cell, hcell⟩ := get_of_lt o.2.1
      cases h2
      refine ⟨p ++ [k], ?_⟩
      rw [walk_append, hw']
      have : (c.heap.grow n k)[n]? = _ := grow_get (n := n) (k := k) hcell
      simp only [Heap.grow] at this
      simp only [Option.bind_some]
      rw [walk_one this]
      simp [GoMap.get_set]
    | save x n => cases h2
    | enter q todo res =>
      cases todo with
      | nil => cases h2
      | cons n todo =>
        simp only [Spot.step] at h2
        split at h2
        · cases h2
        · injection h2 with h2
          injection h2 with hh h3
          injection h3 with h3
          subst h3
          split <;> trivial
    | test q n todo res =>
      obtain ⟨o1, o2, cell, hcell, hend⟩ := o
      simp only [Spot.step, hcell] at h2
      have hd : cell.data.isSome := by
        rcases a.pend n cell hcell hend with h | ⟨u, hu, call2, x, hc⟩
        · exact h
        · exfalso
          obtain ⟨j, hj⟩ := List.getElem?_of_mem hu
          by_cases hji : j = i
          · subst hji
            rw [ht] at hj; cases hj
            rw [h1] at hc; cases hc
          · exact a.rest j u hji hj _ _ _ hc
      obtain ⟨x, hx⟩ := Option.isSome_iff_exists.1 hd
      obtain ⟨b, hb⟩ := (hr _ (List.mem_of_getElem? (a.prog i t ht)) q
        (List.mem_append_left _ (by simp [Thread.begun, h1, o1]))).1 x
      rw [hx, hb] at h2
      cases b with
      | true => cases h2; trivial
      | false => cases h2; trivial
    | take q n todo res =>
      simp only [Spot.step] at h2
      split at h2
      · cases h2
      · split at h2
        · cases h2
        · cases h2; trivial
    | spread q n todo res =>
      simp only [Spot.step] at h2
      split at h2
      · cases h2
      · cases h2; trivial
    | dead => cases h2
  · have w := a.own t ht call s h1
    refine ⟨nofun, ?_⟩
    rcases step_cases h2 with ⟨he, _⟩ | ⟨x, m, rfl, he, hn⟩ | ⟨x, m, k, ks, rfl, he, hn⟩ | ⟨x, m, rfl, he, _⟩
    · rw [he]; exact fun p n m h => h
    · cases hn
    · cases hn
    · rw [he]; intro p n r h; rw [walk_save]; exact h

/-- Leading a goroutine to a situation. -/
theorem lead {keys : T → List Val} {h0 : Heap T} {i : Nat} {P Q : Conf T → Prop}
    (hP : ∀ c, P c → ∃ path, Inv keys h0 c path)
    (h : ∀ c, P c → Q c ∨ ∃ c', c.step keys i = some c' ∧ P c') :
    ∀ c, P c → ∃ is c', c.run keys is = some c' ∧ P c' ∧ Q c' := by
  intro c
  refine (wf_less (T := T) keys).induction (C := fun c => P c → ∃ is c', c.run keys is = some c' ∧ P c' ∧ Q c') c ?_
  intro c ih p
  rcases h c p with q | ⟨c', e, p'⟩
  · exact ⟨[], c, rfl, p, q⟩
  · obtain ⟨path, v⟩ := hP c p
    obtain ⟨is, c2, e2, p2, q2⟩ := ih c' (step_less (ranked_shape v.shape) e) p'
    exact ⟨i :: is, c2, by simp [Conf.run, e, e2], p2, q2⟩

/-- From `c0` only goroutine `i` has moved, undisturbed. -/
structure Moved (keys : T → List Val) (h0 : Heap T) (calls : List (List (Call T))) (i : Nat) (c0 c : Conf T) :
    Prop where
  alone : Alone keys h0 calls i c
  others : ∀ j, j ≠ i → c.ts[j]? = c0.ts[j]?
  walks : ∀ p n m, c0.heap.walk p n = some m → c.heap.walk p n = some m

theorem Moved.refl {keys : T → List Val} {h0 : Heap T} {calls : List (List (Call T))} {i : Nat} {c : Conf T}
    (a : Alone keys h0 calls i c) : Moved keys h0 calls i c c := ⟨a, fun _ _ => rfl, fun _ _ _ h => h⟩

theorem Moved.step {keys : T → List Val} {h0 : Heap T} {calls : List (List (Call T))} {i : Nat} {c0 c c' : Conf T}
    (hr : Replies calls) (m : Moved keys h0 calls i c0 c) (e : c.step keys i = some c') :
    Moved keys h0 calls i c0 c' := by
  obtain ⟨a, w⟩ := alone_step hr m.alone e
  obtain ⟨_, _, _, _, ho, _⟩ := ts_after e
  exact ⟨a, fun j hj => (ho j hj).trans (m.others j hj), fun p n r h => w p n r (m.walks p n r h)⟩

/-- A step inside a call. -/
theorem inner {keys : T → List Val} {c c' : Conf T} {i : Nat} {t : Thread T} {call : Call T} {s : Spot T}
    (e : c.step keys i = some c') (ht : c.ts[i]? = some t) (hc : t.cur = some (call, s)) :
    (∃ s' t', s.step c.heap = some (c'.heap, .at s') ∧ c'.ts[i]? = some t' ∧ t'.cur = some (call, s')) ∨
    ∃ res, s.step c.heap = some (c'.heap, .ret res) := by
  obtain ⟨u, u', hu, hu', _, hk⟩ := ts_after e
  rw [ht] at hu; cases hu
  rcases hk with ⟨call', rest, h1, _, _, rfl⟩ | ⟨call', s', s2, h1, h2, rfl⟩ | ⟨call', s', res, h1, h2, rfl⟩
  · rw [hc] at h1; cases h1
  · rw [hc] at h1; cases h1; exact Or.inl ⟨_, _, h2, hu', rfl⟩
  · rw [hc] at h1; cases h1; exact Or.inr ⟨_, h2⟩

theorem length_begun (t : Thread T) : t.begun.length = t.out.length + t.cur.toList.length := by
  simp [Thread.begun]

/-- A goroutine that runs undisturbed gets to the beginning of any of its calls. -/
theorem reach_call {keys : T → List Val} {h0 : Heap T} {calls : List (List (Call T))} {i : Nat} {c0 : Conf T}
    (hr : Replies calls) (a : Alone keys h0 calls i c0) {t0 : Thread T} (ht0 : c0.ts[i]? = some t0)
    (hcur : t0.cur = none) (hout : t0.out = []) {l1 l2 : List (Call T)} {call : Call T}
    (hl : calls[i]? = some (l1 ++ call :: l2)) :
    ∃ is c t, c0.run keys is = some c ∧ Moved keys h0 calls i c0 c ∧ c.ts[i]? = some t ∧
      t.cur = some (call, call.first keys) := by
  refine (lead (keys := keys) (h0 := h0) (i := i)
    (P := fun c => Moved keys h0 calls i c0 c ∧ ∃ t, c.ts[i]? = some t ∧ t.out.length ≤ l1.length ∧
      (t.out.length = l1.length → t.cur = none ∨ t.cur = some (call, call.first keys)))
    (Q := fun c => ∃ t, c.ts[i]? = some t ∧ t.cur = some (call, call.first keys))
    (fun c p => p.1.alone.inv) ?_ c0 ⟨Moved.refl a, t0, ht0, by simp [hout], fun _ => Or.inl hcur⟩).elim fun is h => ?_
  · rintro c ⟨m, t, ht, hle, hat⟩
    by_cases hq : t.cur = some (call, call.first keys)
    · exact Or.inl ⟨t, ht, hq⟩
    right
    have pr := m.alone.prog i t ht
    rw [hl, Option.some.injEq] at pr
    have hlen := congrArg List.length pr
    simp only [List.length_append, List.length_cons, length_begun] at hlen
    obtain ⟨c', e⟩ := alone_moves hr m.alone ht (by
      rintro ⟨h1, h2⟩
      rw [h1, h2] at hlen
      simp at hlen
      omega)
    refine ⟨c', e, m.step hr e, ?_⟩
    obtain ⟨u, u', hu, hu', _, hk⟩ := ts_after e
    rw [ht] at hu; cases hu
    refine ⟨u', hu', ?_⟩
    rcases hk with ⟨call', rest, h1, h2, _, rfl⟩ | ⟨call', s', s2, h1, h2, rfl⟩ | ⟨call', s', res, h1, h2, rfl⟩
    · refine ⟨hle, fun h => Or.inr ?_⟩
      have h : t.out.length = l1.length := h
      rw [h2] at pr
      have := List.append_inj_right pr (by simp [length_begun, h1, h])
      injection this with h3
      rw [h3]
    · refine ⟨hle, fun h => ?_⟩
      rcases hat h with h | h
      · rw [h] at h1; cases h1
      · exact absurd h hq
    · have : t.out.length ≠ l1.length := by
        intro h
        rcases hat h with h | h
        · rw [h] at h1; cases h1
        · exact absurd h hq
      refine ⟨?_, fun _ => Or.inl rfl⟩
      simp only [List.length_append, List.length_singleton]
      omega
  · obtain ⟨c, e, ⟨m, _⟩, t, ht, hc⟩ := h
    exact ⟨is, c, t, e, m, ht, hc⟩

/-- An insertion that runs undisturbed gets to the point of marking the node of its row. -/
theorem reach_mark {keys : T → List Val} {h0 : Heap T} {calls : List (List (Call T))} {i : Nat} {c0 : Conf T}
    (hr : Replies calls) (a : Alone keys h0 calls i c0) {t0 : Thread T} (ht0 : c0.ts[i]? = some t0) {x : T}
    (hcur : t0.cur = some (.insert x, (Call.insert x).first keys)) :
    ∃ is c t n, c0.run keys is = some c ∧ Moved keys h0 calls i c0 c ∧ c.ts[i]? = some t ∧
      t.cur = some (.insert x, .down x n []) ∧ c.heap.walk (key keys x) 0 = some n := by
  refine (lead (keys := keys) (h0 := h0) (i := i)
    (P := fun c => Moved keys h0 calls i c0 c ∧ ∃ t n ks, c.ts[i]? = some t ∧
      (t.cur = some (.insert x, .down x n ks) ∨ ∃ k, t.cur = some (.insert x, .make x n k ks)))
    (Q := fun c => ∃ t n, c.ts[i]? = some t ∧ t.cur = some (.insert x, .down x n []))
    (fun c p => p.1.alone.inv) ?_ c0 ⟨Moved.refl a, t0, 0, _, ht0, Or.inl hcur⟩).elim fun is h => ?_
  · rintro c ⟨m, t, n, ks, ht, h⟩
    by_cases hq : t.cur = some (.insert x, .down x n [])
    · exact Or.inl ⟨t, n, ht, hq⟩
    right
    obtain ⟨c', e⟩ := alone_moves hr m.alone ht (by
      rintro ⟨h1, _⟩
      rcases h with h | ⟨k, h⟩ <;> (rw [h1] at h; cases h))
    refine ⟨c', e, m.step hr e, ?_⟩
    rcases h with h | ⟨k, h⟩
    · cases ks with
      | nil => exact absurd h hq
      | cons k ks =>
        rcases inner e ht h with ⟨s', t', h1, h2, h3⟩ | ⟨res, h1⟩
        · generalize c'.heap = H at h1
          simp only [Spot.step] at h1
          split at h1
          · cases h1; exact ⟨t', n, ks, h2, Or.inl h3⟩
          · split at h1
            · cases h1
            · split at h1
              · cases h1; exact ⟨t', _, ks, h2, Or.inl h3⟩
              · cases h1; exact ⟨t', n, ks, h2, Or.inr ⟨k, h3⟩⟩
        · obtain ⟨_, h⟩ := down_at h1
          cases h
    · rcases inner e ht h with ⟨s', t', h1, h2, h3⟩ | ⟨res, h1⟩
      · generalize c'.heap = H at h1
        cases h1
        exact ⟨t', _, ks, h2, Or.inl h3⟩
      · generalize c'.heap = H at h1
        cases h1
  · obtain ⟨c, e, ⟨m, _⟩, t, n, ht, hc⟩ := h
    refine ⟨is, c, t, n, e, m, ht, hc, ?_⟩
    obtain ⟨path, v⟩ := m.alone.inv
    obtain ⟨p, hp⟩ := m.alone.own t ht _ _ hc
    have o := (v.spot t (List.mem_of_getElem? ht) _ _ hc).2.2
    have hpath := walk_path v.shape p 0 n hp
    rw [v.shape.root, List.nil_append] at hpath
    have : strip ([] : List Val) = [] := rfl
    rw [this, List.append_nil, hpath] at o
    rw [← o]; exact hp

/-- An insertion that runs undisturbed goes to the node that is there for its row. -/
theorem reach_same {keys : T → List Val} {h0 : Heap T} {calls : List (List (Call T))} {i : Nat} {c0 : Conf T}
    (hr : Replies calls) (a : Alone keys h0 calls i c0) {t0 : Thread T} (ht0 : c0.ts[i]? = some t0) {y : T}
    (hcur : t0.cur = some (.insert y, (Call.insert y).first keys)) {n : Nat}
    (hn : c0.heap.walk (key keys y) 0 = some n) :
    ∃ is c t, c0.run keys is = some c ∧ Moved keys h0 calls i c0 c ∧ c.ts[i]? = some t ∧
      t.cur = some (.insert y, .down y n []) := by
  refine (lead (keys := keys) (h0 := h0) (i := i)
    (P := fun c => Moved keys h0 calls i c0 c ∧ ∃ t n' ks, c.ts[i]? = some t ∧
      t.cur = some (.insert y, .down y n' ks) ∧ c.heap.walk (strip ks) n' = some n)
    (Q := fun c => ∃ t, c.ts[i]? = some t ∧ t.cur = some (.insert y, .down y n []))
    (fun c p => p.1.alone.inv) ?_ c0 ⟨Moved.refl a, t0, 0, _, ht0, hcur, hn⟩).elim fun is h => ?_
  · rintro c ⟨m, t, n', ks, ht, h, hw⟩
    cases ks with
    | nil =>
      have hn' : n' = n := by simpa [strip, Heap.walk] using hw
      subst hn'
      exact Or.inl ⟨t, ht, h⟩
    | cons k ks =>
      right
      obtain ⟨c', e⟩ := alone_moves hr m.alone ht (by rintro ⟨h1, _⟩; rw [h1] at h; cases h)
      have m' := m.step hr e
      have w := (alone_step hr m.alone e).2
      refine ⟨c', e, m', ?_⟩
      rcases inner e ht h with ⟨s', t', h1, h2, h3⟩ | ⟨res, h1⟩
      · generalize c'.heap = H at h1 w ⊢
        simp only [Spot.step] at h1
        split at h1
        · rename_i hk
          cases h1
          exact ⟨t', n', ks, h2, h3, w _ _ _ (by simpa [strip, hk] using hw)⟩
        · rename_i hk
          split at h1
          · cases h1
          · rename_i cell hcell
            have hs : strip (k :: ks) = k :: strip ks := by simp [strip, hk]
            rw [hs] at hw
            simp only [Heap.walk, hcell] at hw
            split at h1
            · rename_i r hget
              rw [hget] at hw
              cases h1
              exact ⟨t', r, ks, h2, h3, w _ _ _ hw⟩
            · rename_i hget
              rw [hget] at hw
              cases hw
      · obtain ⟨_, h⟩ := down_at h1
        cases h
  · obtain ⟨c, e, ⟨m, _⟩, t, ht, hc⟩ := h
    exact ⟨is, c, t, e, m, ht, hc⟩

/-- Node `n` is still before a search. -/
def Toward (h : Heap T) (n : Nat) : Spot T → Prop
  | .enter _ todo _ => ∃ m ∈ todo, ∃ s, h.walk s m = some n
  | .test _ r todo _ => r ≠ n ∧ ∃ m ∈ r :: todo, ∃ s, h.walk s m = some n
  | .take _ r todo _ => r ≠ n ∧ ∃ m ∈ r :: todo, ∃ s, h.walk s m = some n
  | .spread _ r todo _ => r ≠ n ∧ ∃ m ∈ r :: todo, ∃ s, h.walk s m = some n
  | _ => False

/-- A search that runs undisturbed and does not stop early gets to every node of the tree. -/
theorem reach_node {keys : T → List Val} {h0 : Heap T} {calls : List (List (Call T))} {i : Nat} {c0 : Conf T}
    (hr : Replies calls) (a : Alone keys h0 calls i c0) {t0 : Thread T} (ht0 : c0.ts[i]? = some t0) {q : Query T}
    (hcur : t0.cur = some (.search q, (Call.search q).first keys)) (hstop : q.stop = false) {p : List Val} {n : Nat}
    (hn : c0.heap.walk p 0 = some n) :
    ∃ is c t todo res, c0.run keys is = some c ∧ Moved keys h0 calls i c0 c ∧ c.ts[i]? = some t ∧
      t.cur = some (.search q, .enter q (n :: todo) res) := by
  refine (lead (keys := keys) (h0 := h0) (i := i)
    (P := fun c => Moved keys h0 calls i c0 c ∧ ∃ t s, c.ts[i]? = some t ∧
      t.cur = some (.search q, s) ∧ Toward c.heap n s)
    (Q := fun c => ∃ t todo res, c.ts[i]? = some t ∧ t.cur = some (.search q, .enter q (n :: todo) res))
    (fun c p => p.1.alone.inv) ?_ c0 ⟨Moved.refl a, t0, _, ht0, hcur, 0, List.mem_singleton.2 rfl, p, hn⟩).elim fun is h => ?_
  · rintro c ⟨m, t, s, ht, h, hw⟩
    by_cases hq : ∃ todo res, s = .enter q (n :: todo) res
    · obtain ⟨todo, res, rfl⟩ := hq
      exact Or.inl ⟨t, todo, res, ht, h⟩
    right
    obtain ⟨path, v⟩ := m.alone.inv
    have o := v.spot t (List.mem_of_getElem? ht) _ _ h
    obtain ⟨c', e⟩ := alone_moves hr m.alone ht (by rintro ⟨h1, _⟩; rw [h1] at h; cases h)
    refine ⟨c', e, m.step hr e, ?_⟩
    have own' := (m.step hr e).alone.own
    have key : ∃ s' t', s.step c.heap = some (c.heap, .at s') ∧ c'.heap = c.heap ∧ c'.ts[i]? = some t' ∧
        t'.cur = some (.search q, s') ∧ Toward c.heap n s' := by
      have fin : ∀ s', s.step c.heap = some (c.heap, .at s') → Toward c.heap n s' → 
          ∃ s' t', s.step c.heap = some (c.heap, .at s') ∧ c'.heap = c.heap ∧ c'.ts[i]? = some t' ∧
            t'.cur = some (.search q, s') ∧ Toward c.heap n s' := by
        intro s' hs ht'
        rcases inner e ht h with ⟨s2, t', h1, h2, h3⟩ | ⟨res, h1⟩
        · rw [hs] at h1
          injection h1 with h1
          injection h1 with hh h1
          injection h1 with h1
          subst h1
          exact ⟨_, t', hs, hh.symm, h2, h3, ht'⟩
        · rw [hs] at h1; injection h1 with h1; injection h1 with _ h1; cases h1
      have dead : s.step c.heap ≠ some (c.heap, .at .dead) := by
        intro hs
        rcases inner e ht h with ⟨s2, t', h1, h2, h3⟩ | ⟨res, h1⟩
        · rw [hs] at h1
          injection h1 with h1
          injection h1 with hh h1
          injection h1 with h1
          subst h1
          exact own' t' h2 _ _ h3
        · rw [hs] at h1; injection h1 with h1; injection h1 with _ h1; cases h1
      cases s with
      | enter q' todo res =>
        obtain ⟨o1, o2⟩ := o
        cases o1
        obtain ⟨m', hm', w, hw⟩ := hw
        cases todo with
        | nil => cases hm'
        | cons r todo =>
          have hrn : r ≠ n := by rintro rfl; exact hq ⟨_, _, rfl⟩
          obtain ⟨cell, hcell⟩ := get_of_lt (o2.seen r List.mem_cons_self).1
          refine fin (if cell.isEnd then .test q r todo res else .spread q r todo res)
            (by simp [Spot.step, hcell]) ?_
          split
          · exact ⟨hrn, m', hm', w, hw⟩
          · exact ⟨hrn, m', hm', w, hw⟩
      | test q' r todo res =>
        obtain ⟨o1, o2, cell, hcell, _⟩ := o
        cases o1
        cases hcb : q.cb cell.data with
        | ok b =>
          cases b with
          | true => exact fin (.take q r todo res) (by simp [Spot.step, hcell, hcb]) hw
          | false => exact fin (.spread q r todo res) (by simp [Spot.step, hcell, hcb]) hw
        | panic => exact absurd (by simp [Spot.step, hcell, hcb]) dead
        | diverge =>
          exfalso
          obtain ⟨r1, r2⟩ := hr _ (List.mem_of_getElem? (m.alone.prog i t ht)) q
            (List.mem_append_left _ (by simp [Thread.begun, h]))
          cases hd : cell.data with
          | none => rw [hd] at hcb; exact r2 hcb
          | some x => obtain ⟨b, hb⟩ := r1 x; rw [hd, hb] at hcb; cases hcb
      | take q' r todo res =>
        obtain ⟨o1, o2, cell, hcell, _⟩ := o
        cases o1
        exact fin (.spread q r todo (res ++ [cell.data])) (by simp [Spot.step, hcell, hstop]) hw
      | spread q' r todo res =>
        obtain ⟨o1, o2, o3, _⟩ := o
        cases o1
        obtain ⟨cell, hcell⟩ := get_of_lt o3.1
        refine fin (.enter q (q.ord.ord [.int r] _ (cell.child.map (·.2)) ++ todo) res)
          (by simp [Spot.step, hcell]) ?_
        obtain ⟨hrn, m', hm', w, hw⟩ := hw
        rcases List.mem_cons.1 hm' with rfl | hm'
        · cases w with
          | nil => exact absurd (by simpa [Heap.walk] using hw) hrn
          | cons k w =>
            simp only [Heap.walk, hcell] at hw
            split at hw
            · cases hw
            · rename_i r2 hget
              refine ⟨r2, List.mem_append_left _ ?_, w, hw⟩
              rw [(q.ord.perm _ _ _).mem_iff]
              exact List.mem_map.2 ⟨(k, r2), GoMap.get_some_mem hget, rfl⟩
        · exact ⟨m', List.mem_append_right _ hm', w, hw⟩
      | down x n ks => exact hw.elim
      | make x n k ks => exact hw.elim
      | save x n => exact hw.elim
      | dead => exact hw.elim
    obtain ⟨s', t', _, hh, h2, h3, h4⟩ := key
    exact ⟨t', s', h2, h3, by rw [hh]; exact h4⟩
  · obtain ⟨c, e, ⟨m, _⟩, t, todo, res, ht, hc⟩ := h
    exact ⟨is, c, t, todo, res, e, m, ht, hc⟩

theorem run_append {keys : T → List Val} : ∀ (is js : List Nat) {c c1 c2 : Conf T}, c.run keys is = some c1 →
    c1.run keys js = some c2 → c.run keys (is ++ js) = some c2 := by
  intro is
  induction is with
  | nil => intro js c c1 c2 h1 h2; cases h1; exact h2
  | cons i is ih =>
    intro js c c1 c2 h1 h2
    simp only [Conf.run, List.cons_append, Option.bind_eq_some_iff] at h1 ⊢
    obtain ⟨c', h3, h4⟩ := h1
    exact ⟨c', h3, ih js h4 h2⟩

/-- If one goroutine inserts a row and another one inserts a row with the same identity, or makes a search
that does not stop at the first row, then some schedule makes the two race. -/
theorem C108_race {keys : T → List Val} {h0 : Heap T} (g : h0.Good keys) {calls : List (List (Call T))}
    (hr : Replies calls) {i j : Nat} (hij : i ≠ j) {l m : List (Call T)} {x : T} (hl : calls[i]? = some l)
    (hm : calls[j]? = some m) (hx : Call.insert x ∈ l)
    (hy : (∃ y, Call.insert y ∈ m ∧ key keys y = key keys x) ∨ ∃ q, Call.search q ∈ m ∧ q.stop = false) :
    ∃ is c, (Conf.start h0 calls).run keys is = some c ∧ c.RaceBy i j := by
  have hgood := g
  obtain ⟨path, v⟩ := inv_start g calls
  have hcur : ∀ (k : Nat) (t : Thread T), (Conf.start h0 calls).ts[k]? = some t → t.cur = none ∧ t.out = [] := by
    intro k t ht
    simp only [Conf.start, List.getElem?_map, Option.map_eq_some_iff] at ht
    obtain ⟨_, _, rfl⟩ := ht
    exact ⟨rfl, rfl⟩
  have hget : ∀ (k : Nat) (l : List (Call T)), calls[k]? = some l → ∃ t, (Conf.start h0 calls).ts[k]? = some t := by
    intro k l h
    exact ⟨{ todo := l }, by simp [Conf.start, h]⟩
  have a0 : Alone keys h0 calls i (Conf.start h0 calls) := by
    refine ⟨⟨path, v⟩, prog_start h0 calls, ?_, ?_, ?_⟩
    · obtain ⟨_, _, _, hg⟩ := hgood
      exact fun n a ha hend => Or.inl (by rw [← (hg n a ha).2.2.2]; exact hend)
    · intro k t _ ht call x n h
      rw [(hcur k t ht).1] at h; cases h
    · intro t ht call s h
      rw [(hcur i t ht).1] at h; cases h
  obtain ⟨ti, hti⟩ := hget i l hl
  obtain ⟨l1, l2, rfl⟩ := List.append_of_mem hx
  obtain ⟨is1, c1, t1, e1, m1, ht1, hc1⟩ := reach_call hr a0 hti (hcur i ti hti).1 (hcur i ti hti).2 hl
  obtain ⟨is2, c2, t2, n, e2, m2, ht2, hc2, hw2⟩ := reach_mark hr m1.alone ht1 hc1
  -- now the other one
  have others : ∀ k, k ≠ i → c2.ts[k]? = (Conf.start h0 calls).ts[k]? :=
    fun k hk => (m2.others k hk).trans (m1.others k hk)
  have a2 : Alone keys h0 calls j c2 := by
    refine ⟨m2.alone.inv, m2.alone.prog, m2.alone.pend, ?_, ?_⟩
    · intro k t hk ht call y r h
      by_cases hki : k = i
      · subst hki
        rw [ht2] at ht; cases ht
        rw [hc2] at h; cases h
      · rw [others k hki] at ht
        rw [(hcur k t ht).1] at h; cases h
    · intro t ht call s h
      rw [others j hij.symm] at ht
      rw [(hcur j t ht).1] at h; cases h
  obtain ⟨tj, htj⟩ := hget j m hm
  have htj2 : c2.ts[j]? = some tj := by rw [others j hij.symm]; exact htj
  have fin : ∀ call, call ∈ m → (∀ c t, Moved keys h0 calls j c2 c → c.ts[j]? = some t →
        t.cur = some (call, call.first keys) → ∃ is c' t', c.run keys is = some c' ∧ Moved keys h0 calls j c c' ∧
          c'.ts[j]? = some t' ∧ ∃ b, t'.plain = some (.isEnd n, b)) →
      ∃ is c, (Conf.start h0 calls).run keys is = some c ∧ c.RaceBy i j := by
    intro call hcall h
    obtain ⟨k1, k2, rfl⟩ := List.append_of_mem hcall
    obtain ⟨is3, c3, t3, e3, m3, ht3, hc3⟩ := reach_call hr a2 htj2 (hcur j tj htj).1 (hcur j tj htj).2 hm
    obtain ⟨is4, c4, t4, e4, m4, ht4, b, hp4⟩ := h c3 t3 m3 ht3 hc3
    refine ⟨is1 ++ (is2 ++ (is3 ++ is4)), c4,
      run_append _ _ e1 (run_append _ _ e2 (run_append _ _ e3 e4)), hij, t2, t4, .isEnd n, b, ?_, ht4, ?_, hp4⟩
    · rw [m4.others i hij, m3.others i hij]; exact ht2
    · simp [Thread.plain, hc2, Spot.plain]
  rcases hy with ⟨y, hy, hk⟩ | ⟨q, hq, hstop⟩
  · refine fin _ hy fun c t mc ht hc => ?_
    obtain ⟨is, c', t', e, mm, ht', hc'⟩ := reach_same hr mc.alone ht hc (n := n)
      (by rw [hk]; exact mc.walks _ _ _ hw2)
    exact ⟨is, c', t', e, mm, ht', true, by simp [Thread.plain, hc', Spot.plain]⟩
  · refine fin _ hq fun c t mc ht hc => ?_
    obtain ⟨is, c', t', todo, res, e, mm, ht', hc'⟩ := reach_node hr mc.alone ht hc hstop
      (mc.walks _ _ _ hw2)
    exact ⟨is, c', t', e, mm, ht', false, by simp [Thread.plain, hc', Spot.plain]⟩

/-- When no search stops at the first row (every search the manager makes, query.go:18-20), the schedules
with a race are given away by the calls: one goroutine inserts a row, and another one inserts a row with the
same identity, or searches. -/
theorem C108_exact {keys : T → List Val} {h0 : Heap T} (g : h0.Good keys) {calls : List (List (Call T))}
    (hr : Replies calls) (hs : ∀ l ∈ calls, ∀ q, Call.search q ∈ l → q.stop = false) :
    (∃ is c, (Conf.start h0 calls).run keys is = some c ∧ c.Race) ↔
      ∃ (i j : Nat) (l m : List (Call T)) (x : T), i ≠ j ∧ calls[i]? = some l ∧ calls[j]? = some m ∧ Call.insert x ∈ l ∧
        ((∃ y, Call.insert y ∈ m ∧ key keys y = key keys x) ∨ ∃ q, Call.search q ∈ m) := by
  constructor
  · rintro ⟨is, c, e, i, j, r⟩
    obtain ⟨hij, l, m, x, h1, h2, h3, h4⟩ := C108_only g e r
    exact ⟨i, j, l, m, x, hij, h1, h2, h3, h4⟩
  · rintro ⟨i, j, l, m, x, hij, h1, h2, h3, h4⟩
    obtain ⟨is, c, e, r⟩ := C108_race g hr hij h1 h2 h3 (h4.imp id fun ⟨q, hq⟩ =>
      ⟨q, hq, hs _ (List.mem_of_getElem? h2) q hq⟩)
    exact ⟨is, c, e, i, j, r⟩

/-- The full claim: goroutines using the rows of one manager never race. -/
def C108_full : Prop :=
  ∀ (h0 : Heap Data) (calls : List (List (Call Data))) (is : List Nat) (c : Conf Data), h0.Good dkeys →
    (Conf.start h0 calls).run dkeys is = some c → ¬ c.Race

/-- C108, partial: no schedule has a race when only one goroutine uses the trie while it inserts rows of an
identity: the others neither search nor insert rows of that identity. Searches alone never race. Missing:
searches while rows are inserted (false, see `C108_exact`). -/
theorem C108_apart_partial {keys : T → List Val} {h0 : Heap T} (g : h0.Good keys) {calls : List (List (Call T))}
    (ha : ∀ (i j : Nat) (l m : List (Call T)), i ≠ j → calls[i]? = some l → calls[j]? = some m →
      ∀ x, Call.insert x ∈ l → ∀ call ∈ m, ∃ y, call = .insert y ∧ key keys y ≠ key keys x)
    {is : List Nat} {c : Conf T} (e : (Conf.start h0 calls).run keys is = some c) : ¬ c.Race := by
  rintro ⟨i, j, r⟩
  obtain ⟨hij, l, m, x, h1, h2, h3, ⟨y, h4, h5⟩ | ⟨q, h4⟩⟩ := C108_only g e r
  · obtain ⟨z, h6, h7⟩ := ha i j l m hij h1 h2 x h3 _ h4
    cases h6
    exact h7 h5
  · obtain ⟨z, h6, _⟩ := ha i j l m hij h1 h2 x h3 _ h4
    cases h6

section examples

theorem replies_example : Replies [[.insert rowA], [.search (ask rowT)]] := by
  intro l hl q hq
  simp only [List.mem_cons, List.not_mem_nil, or_false] at hl
  rcases hl with rfl | rfl
  · simp at hq
  · simp only [List.mem_singleton, Call.search.injEq] at hq
    subst hq
    exact ⟨fun x => ⟨_, rfl⟩, nofun⟩

/-- C108 is violated: one goroutine adds a row, another asks for rows. -/
theorem C108_counterexample : ∃ is c, (Conf.start heapT [[.insert rowA], [.search (ask rowT)]]).run dkeys is = some c ∧
    c.RaceBy 0 1 :=
  C108_race good_heapT replies_example (by decide) rfl rfl (List.mem_singleton.2 rfl)
    (Or.inr ⟨_, List.mem_singleton.2 rfl, rfl⟩)

theorem C108_full_false : ¬ C108_full := by
  intro h
  obtain ⟨is, c, e, r⟩ := C108_counterexample
  exact h _ _ is c good_heapT e ⟨0, 1, r⟩

/-- One such schedule: the row's node exists, its mark is about to be set, and the search is about to read it. -/
example : ((Conf.start heapT [[.insert rowA], [.search (ask rowT)]]).run dkeys
    (List.replicate 8 0 ++ List.replicate 9 1)).map (fun c => c.ts.map Thread.plain) =
    some [some (.isEnd 3, true), some (.isEnd 3, false)] := by decide +kernel

/-- `C108_exact` applies to these calls. -/
example : ∃ is c, (Conf.start heapT [[.insert rowA], [.search (ask rowT)]]).run dkeys is = some c ∧ c.Race :=
  (C108_exact good_heapT replies_example (by
    intro l hl q hq
    simp only [List.mem_cons, List.not_mem_nil, or_false] at hl
    rcases hl with rfl | rfl
    · simp at hq
    · simp only [List.mem_singleton, Call.search.injEq] at hq
      subst hq; rfl)).2
    ⟨0, 1, _, _, rowA, by decide, rfl, rfl, List.mem_singleton.2 rfl, Or.inr ⟨_, List.mem_singleton.2 rfl⟩⟩

/-- `C108_apart_partial` applies to two goroutines that insert different rows. -/
example (is : List Nat) (c : Conf Data)
    (e : (Conf.start heapT [[.insert rowA], [.insert rowB]]).run dkeys is = some c) : ¬ c.Race := by
  refine C108_apart_partial good_heapT ?_ e
  have hab : key dkeys rowA ≠ key dkeys rowB := by decide +kernel
  intro i j l m hij hl hm x hx call hc
  match i, j with
  | 0, 0 => exact absurd rfl hij
  | 0, 1 =>
    cases hl; cases hm
    simp only [List.mem_singleton, Call.insert.injEq] at hx hc
    subst hx; subst hc
    exact ⟨_, rfl, hab.symm⟩
  | 1, 0 =>
    cases hl; cases hm
    simp only [List.mem_singleton, Call.insert.injEq] at hx hc
    subst hx; subst hc
    exact ⟨_, rfl, hab⟩
  | 1, 1 => exact absurd rfl hij
  | 0, j + 2 => simp at hm
  | 1, j + 2 => simp at hm
  | i + 2, _ => simp at hl

end examples

end TC
end Verif
