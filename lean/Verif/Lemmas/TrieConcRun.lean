import Verif.Lemmas.TrieConc

namespace Verif
namespace TC
variable {T : Type}

/-! ## Programs -/

theorem ts_after {keys : T → List Val} {c c' : Conf T} {i : Nat} (e : c.step keys i = some c') :
    ∃ t t', c.ts[i]? = some t ∧ c'.ts[i]? = some t' ∧ (∀ j, j ≠ i → c'.ts[j]? = c.ts[j]?) ∧
      ((∃ call rest, t.cur = none ∧ t.todo = call :: rest ∧ c'.heap = c.heap ∧
          t' = { t with cur := some (call, call.first keys), todo := rest }) ∨
       (∃ call s s', t.cur = some (call, s) ∧ s.step c.heap = some (c'.heap, .at s') ∧
          t' = { t with cur := some (call, s') }) ∨
       (∃ call s res, t.cur = some (call, s) ∧ s.step c.heap = some (c'.heap, .ret res) ∧
          t' = { t with cur := none, out := t.out ++ [(call, res)] })) := by
  obtain ⟨t, t', ht, hts, hk⟩ := conf_step e
  refine ⟨t, t', ht, ?_, ?_, hk⟩
  · rw [hts, List.getElem?_set_self (List.getElem?_eq_some_iff.1 ht).1]
  · intro j hj
    rw [hts, List.getElem?_set_ne (fun h => hj h.symm)]

/-- A goroutine makes its calls in the order given. -/
theorem prog_step {keys : T → List Val} {calls : List (List (Call T))} {c c' : Conf T} {i : Nat}
    (h : ∀ (j : Nat) (t : Thread T), c.ts[j]? = some t → calls[j]? = some (t.begun ++ t.todo))
    (e : c.step keys i = some c') :
    ∀ (j : Nat) (t : Thread T), c'.ts[j]? = some t → calls[j]? = some (t.begun ++ t.todo) := by
  obtain ⟨t, t', ht, ht', ho, hk⟩ := ts_after e
  intro j u hu
  by_cases hj : j = i
  · subst hj
    rw [ht'] at hu; cases hu
    rw [h j t ht]
    rcases hk with ⟨call, rest, h1, h2, _, rfl⟩ | ⟨call, s, s', h1, _, rfl⟩ | ⟨call, s, res, h1, _, rfl⟩
    · simp [Thread.begun, h1, h2]
    · simp [Thread.begun, h1]
    · simp [Thread.begun, h1]
  · exact h j u (by rw [← ho j hj]; exact hu)

theorem prog_start (h0 : Heap T) (calls : List (List (Call T))) :
    ∀ (j : Nat) (t : Thread T), (Conf.start h0 calls).ts[j]? = some t → calls[j]? = some (t.begun ++ t.todo) := by
  intro j t ht
  simp only [Conf.start, List.getElem?_map, Option.map_eq_some_iff] at ht
  obtain ⟨l, h1, rfl⟩ := ht
  simpa [Thread.begun] using h1

theorem prog_run {keys : T → List Val} {h0 : Heap T} {calls : List (List (Call T))} {is : List Nat}
    {c : Conf T} (e : (Conf.start h0 calls).run keys is = some c) :
    ∀ (j : Nat) (t : Thread T), c.ts[j]? = some t → calls[j]? = some (t.begun ++ t.todo) :=
  run_inv (P := fun c => ∀ (j : Nat) (t : Thread T), c.ts[j]? = some t → calls[j]? = some (t.begun ++ t.todo))
    (fun _ _ _ h e => prog_step h e) is (prog_start h0 calls) e

theorem mem_rows {l : List (Call T)} {x : T} : x ∈ rows l ↔ Call.insert x ∈ l := by
  unfold rows
  rw [List.mem_filterMap]
  constructor
  · rintro ⟨a, ha, hx⟩
    cases a with
    | insert y => cases hx; exact ha
    | search q => cases hx
  · intro h; exact ⟨_, h, rfl⟩

theorem begun_mem {calls : List (List (Call T))} {c : Conf T}
    (h : ∀ (j : Nat) (t : Thread T), c.ts[j]? = some t → calls[j]? = some (t.begun ++ t.todo)) {x : T} (b : c.Begun x) :
    ∃ l ∈ calls, x ∈ rows l := by
  obtain ⟨t, ht, hx⟩ := b
  obtain ⟨j, hj⟩ := List.getElem?_of_mem ht
  exact ⟨_, List.mem_of_getElem? (h j t hj), mem_rows.2 (List.mem_append_left _ hx)⟩

/-! ## Marks without a row -/

/-- A marked node has a row, or somebody is about to store one. -/
def Pend (c : Conf T) : Prop :=
  ∀ (n : Nat) (a : Cell T), c.heap[n]? = some a → a.isEnd = true →
    a.data.isSome ∨ ∃ t ∈ c.ts, ∃ call x, t.cur = some (call, .save x n)

theorem pend_step {keys : T → List Val} {c c' : Conf T} {i : Nat} (p : Pend c)
    (e : c.step keys i = some c') : Pend c' := by
  obtain ⟨t, t', ht, ht', ho, hk⟩ := ts_after e
  have hother : ∀ u ∈ c.ts, u.cur ≠ t.cur → u ∈ c'.ts := by
    intro u hu hne
    obtain ⟨j, hj⟩ := List.getElem?_of_mem hu
    have hji : j ≠ i := by
      rintro rfl
      rw [ht] at hj; cases hj; exact hne rfl
    exact List.mem_of_getElem? (i := j) (by rw [ho j hji]; exact hj)
  have hm' : t' ∈ c'.ts := List.mem_of_getElem? ht'
  -- rows and marks of the heap before are still there; a pending store of another goroutine too
  have old : ∀ (n : Nat) (a : Cell T), c.heap[n]? = some a → a.isEnd = true →
      (∀ call x, t.cur ≠ some (call, .save x n)) →
      a.data.isSome ∨ ∃ t ∈ c'.ts, ∃ call x, t.cur = some (call, .save x n) := by
    intro n a ha hm hne
    rcases p n a ha hm with h | ⟨u, hu, call, x, hc⟩
    · exact Or.inl h
    · refine Or.inr ⟨u, hother u hu ?_, call, x, hc⟩
      rw [hc]
      exact fun h => hne call x h.symm
  rcases hk with ⟨call, rest, h1, h2, hh, rfl⟩ | ⟨call, s, s', h1, h2, rfl⟩ | ⟨call, s, res, h1, h2, rfl⟩
  · intro n a ha hm
    rw [hh] at ha
    exact old n a ha hm (by rw [h1]; exact fun _ _ h => by cases h)
  · rcases step_cases h2 with ⟨he, hns, _⟩ | ⟨x, m, rfl, he, hnx⟩ | ⟨x, m, k, ks, rfl, he, hnx⟩ | ⟨x, m, rfl, he, hnx⟩
    · intro n a ha hm
      rw [he] at ha
      refine old n a ha hm ?_
      intro call' x hc
      rw [h1] at hc
      cases hc
      exact hns _ _ rfl
    · cases hnx
      intro n a ha hm
      rw [he, get_edit] at ha
      split at ha
      · rename_i hmn
        subst hmn
        exact Or.inr ⟨_, hm', call, x, rfl⟩
      · exact old n a ha hm (by rw [h1]; exact fun _ _ h => by cases h)
    · intro n a ha hm
      rw [he] at ha
      rcases get_grow ha with ⟨_, rfl⟩ | ⟨_, c0, h3, ⟨_, rfl⟩ | ⟨_, rfl⟩⟩
      · cases hm
      · exact old n c0 h3 hm (by rw [h1]; exact fun _ _ h => by cases h)
      · exact old n _ h3 hm (by rw [h1]; exact fun _ _ h => by cases h)
    · cases hnx
  · rcases step_cases h2 with ⟨he, hns, _⟩ | ⟨x, m, rfl, he, hnx⟩ | ⟨x, m, k, ks, rfl, he, hnx⟩ | ⟨x, m, rfl, he, hnx⟩
    · intro n a ha hm
      rw [he] at ha
      refine old n a ha hm ?_
      intro call' x hc
      rw [h1] at hc
      cases hc
      exact hns _ _ rfl
    · cases hnx
    · cases hnx
    · intro n a ha hm
      rw [he, get_edit] at ha
      split at ha
      · rw [Option.map_eq_some_iff] at ha
        obtain ⟨c0, _, rfl⟩ := ha
        exact Or.inl rfl
      · rename_i hmn
        refine old n a ha hm ?_
        rw [h1]
        intro call' y h
        cases h
        exact hmn rfl

/-! ## Rows after each kind of step -/

theorem walk_mark (h : Heap T) (n : Nat) (p : List Val) (m : Nat) :
    (h.edit n (fun c => { c with isEnd := true })).walk p m = h.walk p m :=
  walk_edit (f := fun c => { c with isEnd := true }) (fun _ => rfl) p m

theorem walk_save (h : Heap T) (n : Nat) (x : T) (p : List Val) (m : Nat) :
    (h.edit n (fun c => { c with data := some x })).walk p m = h.walk p m :=
  walk_edit (f := fun c => { c with data := some x }) (fun _ => rfl) p m

theorem row_mark (h : Heap T) (n : Nat) (p : List Val) :
    (h.edit n (fun c => { c with isEnd := true })).row p = h.row p := by
  unfold Heap.row
  rw [walk_mark]
  cases h.walk p 0 with
  | none => rfl
  | some m =>
    simp only [Option.bind_some, get_edit]
    split
    · cases h[m]? <;> rfl
    · rfl

theorem row_save {keys : T → List Val} {h : Heap T} {path : Nat → List Val} (sh : Shape keys h path)
    {n : Nat} {x : T} (hp : path n = key keys x) (hn : h.walk (path n) 0 = some n) (hl : n < h.length) :
    (h.edit n (fun c => { c with data := some x })).row = put keys h.row x := by
  funext p
  unfold Heap.row put
  rw [walk_save]
  obtain ⟨c, hc⟩ := get_of_lt hl
  split
  · rename_i he
    rw [← he, ← hp, hn]
    simp only [Option.bind_some, get_edit, if_true, hc, Option.map_some]
  · rename_i he
    cases hw : h.walk p 0 with
    | none => simp only [Option.bind_none, hw]
    | some m =>
      have hm := walk_path sh p 0 m hw
      rw [sh.root, List.nil_append] at hm
      have hnm : n ≠ m := by
        rintro rfl
        exact he (by rw [← hp, hm])
      simp only [Option.bind_some, get_edit, if_neg hnm, hw]

/-- A new child under a key that was free leaves every walk as it was. -/
theorem walk_grow {h : Heap T} {n : Nat} {k : Val} (hn : ∀ c : Cell T, h[n]? = some c → c.child.get k = none) :
    ∀ (p : List Val) (m r : Nat), h.walk p m = some r → (h.grow n k).walk p m = some r := by
  intro p
  induction p with
  | nil => intro m r e; exact e
  | cons a p ih =>
    intro m r e
    simp only [Heap.walk] at e
    split at e
    · cases e
    · rename_i c hc
      split at e
      · cases e
      · rename_i q hq
        have hg : (if n = m then { c with child := c.child.set k h.length } else c).child.get a = some q := by
          split
          · rename_i hnm
            subst hnm
            simp only [GoMap.get_set]
            rw [if_neg]
            · exact hq
            · rintro rfl
              rw [hn c hc] at hq; cases hq
          · exact hq
        simp only [Heap.walk, grow_get hc, hg]
        exact ih q r e

theorem grow_walk {h : Heap T} {n : Nat} {k : Val} : ∀ (p : List Val) (m r : Nat),
    (h.grow n k).walk p m = some r → h.walk p m = some r ∨ r = h.length := by
  intro p
  induction p with
  | nil => intro m r e; exact Or.inl e
  | cons a p ih =>
    intro m r e
    simp only [Heap.walk] at e
    split at e
    · cases e
    · rename_i c hc
      split at e
      · cases e
      · rename_i q hq
        have hnew : q = h.length → r = h.length := by
          intro hqe
          cases p with
          | nil => simp only [Heap.walk, Option.some.injEq] at e; omega
          | cons b p =>
            subst hqe
            simp only [Heap.walk, grow_new] at e
            cases e
        rcases get_grow hc with ⟨_, rfl⟩ | ⟨hm, c0, h1, ⟨_, rfl⟩ | ⟨_, rfl⟩⟩
        · cases hq
        · simp only [GoMap.get_set] at hq
          split at hq
          · cases hq; exact Or.inr (hnew rfl)
          · rcases ih q r e with h2 | h2
            · left; simp only [Heap.walk, h1, hq]; exact h2
            · exact Or.inr h2
        · rcases ih q r e with h2 | h2
          · left; simp only [Heap.walk, h1, hq]; exact h2
          · exact Or.inr h2

theorem row_grow {h : Heap T} {n : Nat} {k : Val} (hn : ∀ c : Cell T, h[n]? = some c → c.child.get k = none)
    (p : List Val) : (h.grow n k).row p = h.row p := by
  unfold Heap.row
  cases hw : h.walk p 0 with
  | some m =>
    rw [walk_grow hn p 0 m hw]
    simp only [Option.bind_some]
    cases hc : h[m]? with
    | some c => rw [grow_get hc]; simp only [Option.bind_some]; split <;> rfl
    | none =>
      simp only [Option.bind_none]
      cases hg : (h.grow n k)[m]? with
      | none => rfl
      | some c =>
        rcases get_grow hg with ⟨_, rfl⟩ | ⟨hm, c0, h1, _⟩
        · rfl
        · rw [hc] at h1; cases h1
  | none =>
    cases hw' : (h.grow n k).walk p 0 with
    | none => rfl
    | some m =>
      rcases grow_walk p 0 m hw' with h2 | h2
      · rw [hw] at h2; cases h2
      · subst h2; simp only [Option.bind_some, grow_new]; rfl

/-! ## Insertions that keep apart -/

/-- The node a goroutine inserts at is in the tree, and the child it is about to make is missing. -/
def Live (h : Heap T) (path : Nat → List Val) : Spot T → Prop
  | .down _ n _ => h.walk (path n) 0 = some n
  | .make _ n k _ => h.walk (path n) 0 = some n ∧ ∀ c : Cell T, h[n]? = some c → c.child.get k = none
  | .save _ n => h.walk (path n) 0 = some n
  | _ => True

structure Serial (keys : T → List Val) (h0 : Heap T) (calls : List (List (Call T))) (c : Conf T)
    (path : Nat → List Val) : Prop where
  inv : Inv keys h0 c path
  prog : ∀ (j : Nat) (t : Thread T), c.ts[j]? = some t → calls[j]? = some (t.begun ++ t.todo)
  live : ∀ t ∈ c.ts, ∀ call s, t.cur = some (call, s) → Live c.heap path s

/-- What holds of the node of a goroutine stays true when walks stay and no child is added. -/
theorem Live.later {keys : T → List Val} {h0 h h' : Heap T} {path path' : Nat → List Val} {B : T → Prop}
    {call : Call T} {s : Spot T} (o : SpotOk keys h0 h path B call s) (l : Later h path h' path')
    (hw : ∀ p r, h.walk p 0 = some r → h'.walk p 0 = some r)
    (hc : ∀ x n k ks, s = .make x n k ks → ∀ c : Cell T, h'[n]? = some c → c.child.get k = none)
    (v : Live h path s) : Live h' path' s := by
  cases s with
  | down x n ks => simp only [Live] at v ⊢; rw [l.path n o.2.1]; exact hw _ _ v
  | make x n k ks => simp only [Live] at v ⊢; rw [l.path n o.2.1]; exact ⟨hw _ _ v.1, hc x n k ks rfl⟩
  | save x n => simp only [Live] at v ⊢; rw [l.path n o.2.1]; exact hw _ _ v
  | enter q todo res => trivial
  | test q n todo res => trivial
  | take q n todo res => trivial
  | spread q n todo res => trivial
  | dead => trivial

theorem live_of_edit {h : Heap T} {n m : Nat} {f : Cell T → Cell T} (hf : ∀ c, (f c).child = c.child) {k : Val}
    (v : ∀ c : Cell T, h[m]? = some c → c.child.get k = none) :
    ∀ c : Cell T, (h.edit n f)[m]? = some c → c.child.get k = none := by
  intro c e
  rw [get_edit] at e
  split at e
  · rw [Option.map_eq_some_iff] at e
    obtain ⟨c0, h1, rfl⟩ := e
    rw [hf]; exact v c0 h1
  · exact v c e

theorem serial_step {keys : T → List Val} {h0 : Heap T} {calls : List (List (Call T))}
    (ap : Apart keys h0 calls) {c c' : Conf T} {path : Nat → List Val} {i : Nat}
    (v : Serial keys h0 calls c path) (e : c.step keys i = some c') :
    (∃ path', Serial keys h0 calls c' path') ∧
      (match c.storing i with
        | some x => c'.heap.row = put keys c.heap.row x
        | none => c'.heap.row = c.heap.row) := by
  obtain ⟨path', v', l⟩ := inv_step v.inv e
  have hprog' := prog_step v.prog e
  obtain ⟨t, t', ht, ht', ho, hk⟩ := ts_after e
  have hm : t ∈ c.ts := List.mem_of_getElem? ht
  -- other goroutines
  have others : ∀ u ∈ c'.ts, (u = t' ∨ ∃ j, j ≠ i ∧ c.ts[j]? = some u) := by
    intro u hu
    obtain ⟨j, hj⟩ := List.getElem?_of_mem hu
    by_cases hji : j = i
    · subst hji; rw [ht'] at hj; cases hj; exact Or.inl rfl
    · exact Or.inr ⟨j, hji, by rw [← ho j hji]; exact hj⟩
  have hstore : c.storing i = match t.cur with
      | some (_, .save x _) => some x
      | _ => none := by
    simp only [Conf.storing, ht]
    rfl
  rcases hk with ⟨call, rest, h1, h2, hh, rfl⟩ | ⟨call, s, s', h1, h2, rfl⟩ | ⟨call, s, res, h1, h2, rfl⟩
  · refine ⟨⟨path', v', hprog', ?_⟩, by rw [hstore, h1, hh]⟩
    have hpath : ∀ n, n < c.heap.length → path' n = path n := l.path
    intro u hu call' s hs
    rcases others u hu with rfl | ⟨j, _, hj⟩
    · cases hs
      cases call with
      | insert x =>
        simp only [Call.first, Live]
        rw [v'.shape.root]; rfl
      | search q => trivial
    · have hu' := List.mem_of_getElem? hj
      refine (v.live u hu' call' s hs).later (v.inv.spot u hu' call' s hs) l ?_ ?_
      · rw [hh]; exact fun _ _ h => h
      · rintro x n k ks rfl
        rw [hh]; exact (v.live u hu' call' _ hs).2
  · have hsp := v.inv.spot t hm call s h1
    have hlv := v.live t hm call s h1
    rcases step_cases h2 with ⟨he, hns, hns2, hns3⟩ | ⟨x, n, rfl, he, hnx⟩ | ⟨x, n, k, ks, rfl, he, hnx⟩ | ⟨x, n, rfl, he, hnx⟩
    · refine ⟨⟨path', v', hprog', ?_⟩, ?_⟩
      · intro u hu call' s2 hs
        rcases others u hu with rfl | ⟨j, _, hj⟩
        · cases hs
          -- the goroutine itself, the heap being the same
          rw [he] at h2
          have hsp' := v'.spot _ hu call s' rfl
          cases s with
          | down x n ks =>
            cases ks with
            | nil =>
              simp only [Spot.step, Option.some.injEq, Prod.mk.injEq, Next.at.injEq] at h2
              exact absurd (congrArg Next.at h2.2.symm) (hns2 x n)
            | cons k ks =>
              simp only [Spot.step] at h2
              split at h2
              · cases h2
                simp only [Live] at hlv ⊢
                rw [l.path n hsp.2.1, he]; exact hlv
              · split at h2
                · cases h2
                · rename_i a ha
                  split at h2
                  · rename_i m hm2
                    cases h2
                    simp only [Live] at hlv ⊢
                    obtain ⟨_, h4, h5⟩ := v.inv.shape.kid n a k m ha hm2
                    rw [l.path m h4, h5, he, walk_append, hlv, Option.bind_some, walk_one ha, hm2]
                  · rename_i hm2
                    cases h2
                    simp only [Live] at hlv ⊢
                    rw [l.path n hsp.2.1, he]
                    refine ⟨hlv, ?_⟩
                    intro a' ha'
                    rw [ha] at ha'; cases ha'; exact hm2
          | make x n k ks => exact absurd rfl (hns3 x n k ks)
          | save x n => exact absurd rfl (hns x n)
          | enter q todo res =>
            cases todo with
            | nil => cases h2
            | cons n todo =>
              simp only [Spot.step] at h2
              split at h2
              · cases h2
              · cases h2; split <;> trivial
          | test q n todo res =>
            simp only [Spot.step] at h2
            split at h2
            · cases h2
            · split at h2 <;> first | (cases h2; trivial) | cases h2
          | take q n todo res =>
            simp only [Spot.step] at h2
            split at h2
            · cases h2
            · split at h2 <;> first | (cases h2; trivial) | cases h2
          | spread q n todo res =>
            simp only [Spot.step] at h2
            split at h2
            · cases h2
            · cases h2; trivial
          | dead => cases h2
        · have hu' := List.mem_of_getElem? hj
          refine (v.live u hu' call' s2 hs).later (v.inv.spot u hu' call' s2 hs) l ?_ ?_
          · rw [he]; exact fun _ _ h => h
          · rintro x n k ks rfl
            rw [he]; exact (v.live u hu' call' _ hs).2
      · rw [hstore, h1, he]
        cases s with
        | save x n => exact absurd rfl (hns x n)
        | _ => rfl
    · cases hnx
      refine ⟨⟨path', v', hprog', ?_⟩, ?_⟩
      · intro u hu call' s2 hs
        rcases others u hu with rfl | ⟨j, _, hj⟩
        · cases hs
          simp only [Live] at hlv ⊢
          rw [l.path n hsp.2.1, he, walk_mark]; exact hlv
        · have hu' := List.mem_of_getElem? hj
          refine (v.live u hu' call' s2 hs).later (v.inv.spot u hu' call' s2 hs) l ?_ ?_
          · intro p r h; rw [he, walk_mark]; exact h
          · rintro y m k ks rfl
            rw [he]; exact live_of_edit (f := fun c => { c with isEnd := true }) (fun _ => rfl) (v.live u hu' call' _ hs).2
      · rw [hstore, h1, he]
        funext p
        exact row_mark _ _ _
    · cases hnx
      obtain ⟨hl1, hl2⟩ := hlv
      obtain ⟨ha, hb, hk, hd, _⟩ := hsp
      have hwalk : ∀ p r, c.heap.walk p 0 = some r → c'.heap.walk p 0 = some r := by
        intro p r h; rw [he]; exact walk_grow hl2 p 0 r h
      refine ⟨⟨path', v', hprog', ?_⟩, ?_⟩
      · intro u hu call' s2 hs
        rcases others u hu with rfl | ⟨j, hji, hj⟩
        · cases hs
          simp only [Live]
          obtain ⟨a, hna⟩ := get_of_lt hb
          have hna' : c'.heap[n]? = some { a with child := a.child.set k c.heap.length } := by
            rw [he, grow_get hna, if_pos rfl]
          have hg : ({ a with child := a.child.set k c.heap.length } : Cell T).child.get k =
              some c.heap.length := by simp
          have hpl := (v'.shape.kid n _ k _ hna' hg).2.2
          rw [hpl, l.path n hb, walk_append, hwalk _ _ hl1, Option.bind_some, walk_one hna', hg]
        · have hu' := List.mem_of_getElem? hj
          have hspu := v.inv.spot u hu' call' s2 hs
          refine (v.live u hu' call' s2 hs).later hspu l hwalk ?_
          rintro y m k' ks' rfl b hbm
          have hlu := v.live u hu' call' _ hs
          rw [he] at hbm
          rcases get_grow hbm with ⟨_, rfl⟩ | ⟨_, c0, h3, ⟨rfl, rfl⟩ | ⟨_, rfl⟩⟩
          · rfl
          · simp only [GoMap.get_set]
            split
            · rename_i hkk
              subst hkk
              exfalso
              -- two goroutines about to make the same node
              have hx : x ∈ rows (t.begun ++ t.todo) :=
                mem_rows.2 (List.mem_append_left _ (by simp [Thread.begun, h1, ha]))
              have hy : y ∈ rows (u.begun ++ u.todo) :=
                mem_rows.2 (List.mem_append_left _ (by simp [Thread.begun, hs, hspu.1]))
              have hpx : path n ++ [k] <+: key keys x := by
                rw [← hd]
                exact ⟨strip ks, by simp⟩
              have hpy : path n ++ [k] <+: key keys y := by
                rw [← hspu.2.2.2.1]
                exact ⟨strip ks', by simp⟩
              have := ap i j _ _ (fun h => hji h.symm) (v.prog i t ht) (v.prog j u hj) x hx y hy _ hpx hpy
              obtain ⟨r, hr⟩ := Option.isSome_iff_exists.1 this
              have hr2 := v.inv.since.walk _ _ _ hr
              rw [walk_append, hl1, Option.bind_some, walk_one h3, hl2 c0 h3] at hr2
              cases hr2
            · exact hlu.2 c0 h3
          · exact hlu.2 _ h3
      · rw [hstore, h1, he]
        funext p
        exact row_grow hl2 p
    · cases hnx
  · have hsp := v.inv.spot t hm call s h1
    have hlv := v.live t hm call s h1
    rcases step_cases h2 with ⟨he, hns, _⟩ | ⟨x, n, rfl, he, hnx⟩ | ⟨x, n, k, ks, rfl, he, hnx⟩ | ⟨x, n, rfl, he, hnx⟩
    · refine ⟨⟨path', v', hprog', ?_⟩, ?_⟩
      · intro u hu call' s2 hs
        rcases others u hu with rfl | ⟨j, _, hj⟩
        · cases hs
        · have hu' := List.mem_of_getElem? hj
          refine (v.live u hu' call' s2 hs).later (v.inv.spot u hu' call' s2 hs) l ?_ ?_
          · rw [he]; exact fun _ _ h => h
          · rintro x n k ks rfl
            rw [he]; exact (v.live u hu' call' _ hs).2
      · rw [hstore, h1, he]
        cases s with
        | save x n => exact absurd rfl (hns x n)
        | _ => rfl
    · cases hnx
    · cases hnx
    · refine ⟨⟨path', v', hprog', ?_⟩, ?_⟩
      · intro u hu call' s2 hs
        rcases others u hu with rfl | ⟨j, _, hj⟩
        · cases hs
        · have hu' := List.mem_of_getElem? hj
          refine (v.live u hu' call' s2 hs).later (v.inv.spot u hu' call' s2 hs) l ?_ ?_
          · intro p r h; rw [he, walk_save]; exact h
          · rintro y m k ks rfl
            rw [he]; exact live_of_edit (f := fun c => { c with data := some x }) (fun _ => rfl) (v.live u hu' call' _ hs).2
      · rw [hstore, h1, he]
        exact row_save v.inv.shape hsp.2.2.1 hlv hsp.2.1

theorem save_ret {h h' : Heap T} {x : T} {n : Nat} {nx : Next T}
    (e : (Spot.save x n).step h = some (h', nx)) : nx = .ret [] := by cases e; rfl

theorem down_at {h h' : Heap T} {x : T} {n : Nat} {ks : List Val} {nx : Next T}
    (e : (Spot.down x n ks).step h = some (h', nx)) : ∃ s, nx = .at s := by
  cases ks with
  | nil => cases e; exact ⟨_, rfl⟩
  | cons k ks =>
    simp only [Spot.step] at e
    split at e
    · cases e; exact ⟨_, rfl⟩
    · split at e
      · cases e
      · split at e <;> (cases e; exact ⟨_, rfl⟩)

/-- The rows a goroutine stored are those of its finished insertions. -/
theorem out_step {keys : T → List Val} {h0 : Heap T} {c c' : Conf T} {path : Nat → List Val} {i : Nat}
    (v : Inv keys h0 c path) (e : c.step keys i = some c') (j : Nat) (t : Thread T) (hj : c.ts[j]? = some t) :
    ∃ t', c'.ts[j]? = some t' ∧ rows (t'.out.map (·.1)) =
      rows (t.out.map (·.1)) ++ storedBy j ((c.storing i).map fun x => (i, x)).toList := by
  obtain ⟨u, u', hu, hu', ho, hk⟩ := ts_after e
  by_cases hji : j = i
  · subst hji
    have hut : t = u := Option.some.inj (hj.symm.trans hu)
    subst hut
    clear hj
    refine ⟨u', hu', ?_⟩
    have hm : t ∈ c.ts := List.mem_of_getElem? hu
    rcases hk with ⟨call, rest, h1, h2, hh, rfl⟩ | ⟨call, s, s', h1, h2, rfl⟩ | ⟨call, s, res, h1, h2, rfl⟩
    · have : c.storing j = none := by simp only [Conf.storing, hu, h1]
      rw [this]; simp [storedBy]
    · have : c.storing j = none := by
        simp only [Conf.storing, hu, h1]
        cases s <;> first | rfl | cases save_ret h2
      rw [this]; simp [storedBy]
    · have hsp := v.spot t hm call s h1
      simp only [List.map_append, List.map_cons, List.map_nil]
      unfold rows
      rw [List.filterMap_append]
      congr 1
      rcases step_cases h2 with ⟨he, hns, _, hns3⟩ | ⟨x, n, rfl, he, hnx⟩ | ⟨x, n, k, ks, rfl, he, hnx⟩ | ⟨x, n, rfl, he, hnx⟩
      · have h3 : c.storing j = none ∧ call.row = none := by
          simp only [Conf.storing, hu, h1]
          cases s with
          | down x n ks =>
            obtain ⟨_, h5⟩ := down_at h2
            cases h5
          | make x n k ks => exact absurd rfl (hns3 x n k ks)
          | save x n => exact absurd rfl (hns x n)
          | enter q todo res => exact ⟨rfl, by rw [hsp.1]; rfl⟩
          | test q n todo res => exact ⟨rfl, by rw [hsp.1]; rfl⟩
          | take q n todo res => exact ⟨rfl, by rw [hsp.1]; rfl⟩
          | spread q n todo res => exact ⟨rfl, by rw [hsp.1]; rfl⟩
          | dead => cases h2
        rw [h3.1]; simp [storedBy, h3.2]
      · cases hnx
      · cases hnx
      · have : c.storing j = some x := by simp only [Conf.storing, hu, h1]
        rw [this, hsp.1]
        simp [storedBy, Call.row]
  · refine ⟨t, by rw [ho j hji]; exact hj, ?_⟩
    have : storedBy j ((c.storing i).map fun x => (i, x)).toList = [] := by
      cases c.storing i with
      | none => rfl
      | some x => simpa [storedBy] using fun h : i = j => hji h.symm
    rw [this, List.append_nil]

theorem storedBy_append (i : Nat) (l m : List (Nat × T)) :
    storedBy i (l ++ m) = storedBy i l ++ storedBy i m := by simp [storedBy]

theorem out_run {keys : T → List Val} {h0 : Heap T} : ∀ (is : List Nat) {c c' : Conf T} {path : Nat → List Val},
    Inv keys h0 c path → c.run keys is = some c' → ∀ (j : Nat) (t : Thread T), c.ts[j]? = some t →
    ∃ t', c'.ts[j]? = some t' ∧
      rows (t'.out.map (·.1)) = rows (t.out.map (·.1)) ++ storedBy j (c.stores keys is) := by
  intro is
  induction is with
  | nil => intro c c' path v e j t hj; cases e; exact ⟨t, hj, by simp [Conf.stores, storedBy]⟩
  | cons i is ih =>
    intro c c' path v e j t hj
    simp only [Conf.run, Option.bind_eq_some_iff] at e
    obtain ⟨c1, h1, h2⟩ := e
    obtain ⟨path1, v1, _⟩ := inv_step v h1
    obtain ⟨t1, h3, h4⟩ := out_step v h1 j t hj
    obtain ⟨t2, h5, h6⟩ := ih v1 h2 j t1 h3
    refine ⟨t2, h5, ?_⟩
    simp only [Conf.stores, h1]
    rw [h6, h4, storedBy_append, List.append_assoc]

theorem serial_run {keys : T → List Val} {h0 : Heap T} {calls : List (List (Call T))}
    (ap : Apart keys h0 calls) : ∀ (is : List Nat) {c c' : Conf T} {path : Nat → List Val},
    Serial keys h0 calls c path → c.run keys is = some c' →
    c'.heap.row = ((c.stores keys is).map (·.2)).foldl (put keys) c.heap.row := by
  intro is
  induction is with
  | nil => intro c c' path v e; cases e; rfl
  | cons i is ih =>
    intro c c' path v e
    simp only [Conf.run, Option.bind_eq_some_iff] at e
    obtain ⟨c1, h1, h2⟩ := e
    obtain ⟨⟨path1, v1⟩, h3⟩ := serial_step ap v h1
    rw [ih v1 h2]
    simp only [Conf.stores, h1]
    cases hs : c.storing i with
    | none =>
      rw [hs] at h3
      simp only at h3
      rw [h3]; rfl
    | some x =>
      rw [hs] at h3
      simp only at h3
      rw [h3]; rfl

theorem serial_start {keys : T → List Val} {h0 : Heap T} (g : h0.Good keys) (calls : List (List (Call T))) :
    ∃ path, Serial keys h0 calls (.start h0 calls) path := by
  obtain ⟨path, v⟩ := inv_start g calls
  refine ⟨path, v, prog_start h0 calls, ?_⟩
  intro t ht call s hs
  simp only [Conf.start, List.mem_map] at ht
  obtain ⟨l, _, rfl⟩ := ht
  cases hs

/-! ## A search finds what stays -/

/-- A search that must find `x`, at node `r` of `h0`, has found it or has its node before it. -/
def Ahead (h0 : Heap T) (r : Nat) (x : T) (call : Call T) : Spot T → Prop
  | .enter q todo res => (q.stop = true ∧ res ≠ []) ∨ q.cb (some x) ≠ .ok true ∨ some x ∈ res ∨
      ∃ m ∈ todo, ∃ s, h0.walk s m = some r
  | .test q n todo res => (q.stop = true ∧ res ≠ []) ∨ q.cb (some x) ≠ .ok true ∨ some x ∈ res ∨
      ∃ m ∈ n :: todo, ∃ s, h0.walk s m = some r
  | .take q n todo res => (q.stop = true ∧ res ≠ []) ∨ q.cb (some x) ≠ .ok true ∨ some x ∈ res ∨
      ∃ m ∈ n :: todo, ∃ s, h0.walk s m = some r
  | .spread q n todo res => (q.stop = true ∧ res ≠ []) ∨ q.cb (some x) ≠ .ok true ∨ some x ∈ res ∨
      (∃ m ∈ todo, ∃ s, h0.walk s m = some r) ∨ ∃ k s, h0.walk (k :: s) n = some r
  | _ => ∃ y, call = .insert y

/-- What is known of a finished call. -/
def FoundIn (x : T) (e : Call T × List (Option T)) : Prop :=
  match e.1 with
  | .insert _ => True
  | .search q => (q.stop = true ∧ e.2 ≠ []) ∨ q.cb (some x) ≠ .ok true ∨ some x ∈ e.2

theorem ahead_first {keys : T → List Val} {h0 : Heap T} {r : Nat} {p : List Val} (hr : h0.walk p 0 = some r)
    (x : T) (call : Call T) : Ahead h0 r x call (call.first keys) := by
  cases call with
  | insert y => exact ⟨y, rfl⟩
  | search q => exact Or.inr (Or.inr (Or.inr ⟨0, List.mem_singleton.2 rfl, p, hr⟩))

/-- Skipping a node that is not `r` itself. -/
theorem ahead_skip {h0 : Heap T} {r n : Nat} {todo : List Nat} {P Q R : Prop}
    (hn : n ≠ r ∨ P ∨ Q ∨ R)
    (h : P ∨ Q ∨ R ∨ ∃ m ∈ n :: todo, ∃ s, h0.walk s m = some r) :
    P ∨ Q ∨ R ∨ (∃ m ∈ todo, ∃ s, h0.walk s m = some r) ∨ ∃ k s, h0.walk (k :: s) n = some r := by
  rcases h with h | h | h | ⟨m, hm, s, hs⟩
  · exact Or.inl h
  · exact Or.inr (Or.inl h)
  · exact Or.inr (Or.inr (Or.inl h))
  · rcases List.mem_cons.1 hm with rfl | hm
    · cases s with
      | nil =>
        simp only [Heap.walk, Option.some.injEq] at hs
        rcases hn with hn | hn | hn | hn
        · exact absurd hs hn
        · exact Or.inl hn
        · exact Or.inr (Or.inl hn)
        · exact Or.inr (Or.inr (Or.inl hn))
      | cons k s => exact Or.inr (Or.inr (Or.inr (Or.inr ⟨k, s, hs⟩)))
    · exact Or.inr (Or.inr (Or.inr (Or.inl ⟨m, hm, s, hs⟩)))

theorem ahead_step {keys : T → List Val} {h0 h h' : Heap T} {path : Nat → List Val} {B : T → Prop}
    {call : Call T} {s : Spot T} {nx : Next T} {r : Nat} {x : T}
    (sh : Shape keys h path) (si : Since h0 h)
    (hd : ∃ c : Cell T, h[r]? = some c ∧ c.data = some x)
    (o : SpotOk keys h0 h path B call s) (ah : Ahead h0 r x call s) (e : s.step h = some (h', nx)) :
    (∀ s', nx = .at s' → s' = .dead ∨ Ahead h0 r x call s') ∧ ∀ res, nx = .ret res → FoundIn x (call, res) := by
  obtain ⟨cr, hcr, hdr⟩ := hd
  cases s with
  | down y n ks =>
    have hc := o.1
    refine ⟨fun s' hs => Or.inr ?_, fun res hr => by rw [hc]; trivial⟩
    subst hs
    cases ks with
    | nil => cases e; exact ⟨y, hc⟩
    | cons k ks =>
      simp only [Spot.step] at e
      split at e
      · cases e; exact ⟨y, hc⟩
      · split at e
        · cases e
        · split at e <;> (cases e; exact ⟨y, hc⟩)
  | make y n k ks =>
    cases e
    refine ⟨fun s' hs => ?_, nofun⟩
    cases hs
    exact Or.inr ⟨y, o.1⟩
  | save y n =>
    cases e
    refine ⟨nofun, fun res _ => ?_⟩
    rw [o.1]; trivial
  | enter q todo res =>
    cases todo with
    | nil =>
      cases e
      refine ⟨nofun, fun res' hr => ?_⟩
      cases hr
      rw [o.1]
      rcases ah with h1 | h1 | h1 | ⟨m, hm, _⟩
      · exact Or.inl h1
      · exact Or.inr (Or.inl h1)
      · exact Or.inr (Or.inr h1)
      · cases hm
    | cons n todo =>
      simp only [Spot.step] at e
      split at e
      · cases e
      · rename_i c hc
        cases e
        refine ⟨fun s' hs => Or.inr ?_, nofun⟩
        cases hs
        split
        · exact ah
        · rename_i hm
          refine ahead_skip ?_ ah
          left
          rintro rfl
          rw [hc] at hcr; cases hcr
          exact hm (sh.mark n cr hc (by rw [hdr]; rfl))
  | test q n todo res =>
    simp only [Spot.step] at e
    split at e
    · cases e
    · rename_i c hc
      split at e
      · cases e
        refine ⟨fun s' hs => Or.inr ?_, nofun⟩
        cases hs
        exact ah
      · rename_i hcb
        cases e
        refine ⟨fun s' hs => Or.inr ?_, nofun⟩
        cases hs
        refine ahead_skip ?_ ah
        by_cases hnr : n = r
        · subst hnr
          rw [hc] at hcr; cases hcr
          rw [hdr] at hcb
          exact Or.inr (Or.inr (Or.inl (by rw [hcb]; exact fun h => by cases h)))
        · exact Or.inl hnr
      · cases e
        refine ⟨fun s' hs => ?_, nofun⟩
        cases hs; exact Or.inl rfl
      · cases e
  | take q n todo res =>
    simp only [Spot.step] at e
    split at e
    · cases e
    · rename_i c hc
      split at e
      · rename_i hst
        cases e
        refine ⟨nofun, fun res' hr => ?_⟩
        rw [o.1]
        cases hr
        exact Or.inl ⟨hst, by simp⟩
      · cases e
        refine ⟨fun s' hs => Or.inr ?_, nofun⟩
        cases hs
        have ah' : (q.stop = true ∧ res ++ [c.data] ≠ []) ∨ q.cb (some x) ≠ .ok true ∨ some x ∈ res ++ [c.data] ∨
            ∃ m ∈ n :: todo, ∃ s, h0.walk s m = some r :=
          ah.imp (fun h => ⟨h.1, by simp⟩) (Or.imp id (Or.imp (List.mem_append_left _) id))
        refine ahead_skip ?_ ah'
        by_cases hnr : n = r
        · subst hnr
          rw [hc] at hcr; cases hcr
          exact Or.inr (Or.inr (Or.inr (by rw [hdr]; simp)))
        · exact Or.inl hnr
  | spread q n todo res =>
    simp only [Spot.step] at e
    split at e
    · cases e
    · rename_i c hc
      cases e
      refine ⟨fun s' hs => Or.inr ?_, nofun⟩
      cases hs
      rcases ah with h1 | h1 | h1 | ⟨m, hm, s, hs⟩ | ⟨k, s, hs⟩
      · exact Or.inl h1
      · exact Or.inr (Or.inl h1)
      · exact Or.inr (Or.inr (Or.inl h1))
      · exact Or.inr (Or.inr (Or.inr ⟨m, List.mem_append_right _ hm, s, hs⟩))
      · simp only [Heap.walk] at hs
        split at hs
        · cases hs
        · rename_i c0 hc0
          split at hs
          · cases hs
          · rename_i m hm
            obtain ⟨c1, h3, h4⟩ := si.keep n c0 k m hc0 hm
            rw [hc] at h3; cases h3
            refine Or.inr (Or.inr (Or.inr ⟨m, List.mem_append_left _ ?_, s, hs⟩))
            rw [Ord.mem_ord]
            exact List.mem_map.2 ⟨(k, m), GoMap.get_some_mem h4, rfl⟩
  | dead => cases e

/-- Every search on the way has the row `x` ahead of it or found. -/
structure Finds (h0 : Heap T) (r : Nat) (x : T) (c : Conf T) : Prop where
  cur : ∀ t ∈ c.ts, ∀ call s, t.cur = some (call, s) → s = .dead ∨ Ahead h0 r x call s
  out : ∀ t ∈ c.ts, ∀ e ∈ t.out, FoundIn x e

theorem finds_step {keys : T → List Val} {h0 : Heap T} {c c' : Conf T} {path : Nat → List Val} {i r : Nat} {x : T}
    {p : List Val} {c0 : Cell T} (hr : h0.walk p 0 = some r) (hc0 : h0[r]? = some c0) (hx : c0.data = some x)
    (hno : ∀ y, c.Begun y → key keys y ≠ key keys x)
    (v : Inv keys h0 c path) (f : Finds h0 r x c) (e : c.step keys i = some c') : Finds h0 r x c' := by
  obtain ⟨t, t', ht, hts, hk⟩ := conf_step e
  have hm : t ∈ c.ts := List.mem_of_getElem? ht
  have hd := v.kept r c0 x hc0 hx hno
  have hcur : ∀ call s, t'.cur = some (call, s) → s = .dead ∨ Ahead h0 r x call s := by
    rcases hk with ⟨call, rest, h1, h2, hh, rfl⟩ | ⟨call, s, s', h1, h2, rfl⟩ | ⟨call, s, res, h1, h2, rfl⟩
    · intro call' s hs; cases hs; exact Or.inr (ahead_first hr x call)
    · intro call' s2 hs
      cases hs
      rcases f.cur t hm call s h1 with rfl | ha
      · cases h2
      · exact (ahead_step v.shape v.since hd (v.spot t hm call s h1) ha h2).1 s' rfl
    · intro call' s2 hs; cases hs
  have hout : ∀ en ∈ t'.out, FoundIn x en := by
    rcases hk with ⟨call, rest, h1, h2, hh, rfl⟩ | ⟨call, s, s', h1, h2, rfl⟩ | ⟨call, s, res, h1, h2, rfl⟩
    · exact f.out t hm
    · exact f.out t hm
    · intro en hen
      rcases List.mem_append.1 hen with hen | hen
      · exact f.out t hm en hen
      · rw [List.mem_singleton] at hen
        subst hen
        rcases f.cur t hm call s h1 with rfl | ha
        · cases h2
        · exact (ahead_step v.shape v.since hd (v.spot t hm call s h1) ha h2).2 res rfl
  constructor
  · intro u hu
    rw [hts] at hu
    rcases mem_set_ts hu with rfl | hu
    · exact hcur
    · exact f.cur u hu
  · intro u hu
    rw [hts] at hu
    rcases mem_set_ts hu with rfl | hu
    · exact hout
    · exact f.out u hu

/-- A search for one row has none yet. -/
def Spot.One : Spot T → Prop
  | .enter q _ res => q.stop = true → res = []
  | .test q _ _ res => q.stop = true → res = []
  | .take q _ _ res => q.stop = true → res = []
  | .spread q _ _ res => q.stop = true → res = []
  | _ => True

theorem one_step {keys : T → List Val} {h0 h h' : Heap T} {path : Nat → List Val} {B : T → Prop}
    {call : Call T} {s : Spot T} {nx : Next T} (o : SpotOk keys h0 h path B call s) (w : s.One)
    (e : s.step h = some (h', nx)) :
    (∀ s', nx = .at s' → s'.One) ∧ ∀ res q, nx = .ret res → call = .search q → q.stop = true → res.length ≤ 1 := by
  cases s with
  | down y n ks =>
    have hc := o.1
    refine ⟨fun s' hs => ?_, fun res q _ h => by rw [hc] at h; cases h⟩
    subst hs
    cases ks with
    | nil => cases e; trivial
    | cons k ks =>
      simp only [Spot.step] at e
      split at e
      · cases e; trivial
      · split at e
        · cases e
        · split at e <;> (cases e; trivial)
  | make y n k ks => cases e; exact ⟨fun s' hs => by cases hs; trivial, nofun⟩
  | save y n => cases e; exact ⟨nofun, fun res q _ h => by rw [o.1] at h; cases h⟩
  | enter q todo res =>
    cases todo with
    | nil =>
      cases e
      refine ⟨nofun, fun res' q' hr hc hst => ?_⟩
      cases hr
      rw [o.1] at hc; cases hc
      rw [w hst]; exact Nat.zero_le _
    | cons n todo =>
      simp only [Spot.step] at e
      split at e
      · cases e
      · cases e
        refine ⟨fun s' hs => ?_, nofun⟩
        cases hs
        split <;> exact w
  | test q n todo res =>
    simp only [Spot.step] at e
    split at e
    · cases e
    · split at e
      all_goals first | cases e; done | (cases e; exact ⟨fun s' hs => by cases hs; first | exact w | trivial, nofun⟩)
  | take q n todo res =>
    simp only [Spot.step] at e
    split at e
    · cases e
    · split at e
      · rename_i hst
        cases e
        refine ⟨nofun, fun res' q' hr hc _ => ?_⟩
        cases hr
        rw [w hst]; simp
      · rename_i hst
        cases e
        exact ⟨fun s' hs => by cases hs; exact fun h => absurd h hst, nofun⟩
  | spread q n todo res =>
    simp only [Spot.step] at e
    split at e
    · cases e
    · cases e
      exact ⟨fun s' hs => by cases hs; exact w, nofun⟩
  | dead => cases e

/-- Every search for one row has at most one. -/
structure Ones (c : Conf T) : Prop where
  cur : ∀ t ∈ c.ts, ∀ call s, t.cur = some (call, s) → s.One
  out : ∀ t ∈ c.ts, ∀ q res, (Call.search q, res) ∈ t.out → q.stop = true → res.length ≤ 1

theorem ones_step {keys : T → List Val} {h0 : Heap T} {c c' : Conf T} {path : Nat → List Val} {i : Nat}
    (v : Inv keys h0 c path) (f : Ones c) (e : c.step keys i = some c') : Ones c' := by
  obtain ⟨t, t', ht, hts, hk⟩ := conf_step e
  have hm : t ∈ c.ts := List.mem_of_getElem? ht
  have hcur : ∀ call s, t'.cur = some (call, s) → s.One := by
    rcases hk with ⟨call, rest, h1, h2, hh, rfl⟩ | ⟨call, s, s', h1, h2, rfl⟩ | ⟨call, s, res, h1, h2, rfl⟩
    · intro call' s hs; cases hs
      cases call with
      | insert y => trivial
      | search q => exact fun _ => rfl
    · intro call' s2 hs
      cases hs
      exact (one_step (v.spot t hm call s h1) (f.cur t hm call s h1) h2).1 s' rfl
    · intro call' s2 hs; cases hs
  have hout : ∀ q res, (Call.search q, res) ∈ t'.out → q.stop = true → res.length ≤ 1 := by
    rcases hk with ⟨call, rest, h1, h2, hh, rfl⟩ | ⟨call, s, s', h1, h2, rfl⟩ | ⟨call, s, res, h1, h2, rfl⟩
    · exact f.out t hm
    · exact f.out t hm
    · intro q res' hen hst
      rcases List.mem_append.1 hen with hen | hen
      · exact f.out t hm q res' hen hst
      · simp only [List.mem_singleton, Prod.mk.injEq] at hen
        obtain ⟨hc, rfl⟩ := hen
        exact (one_step (v.spot t hm call s h1) (f.cur t hm call s h1) h2).2 _ q rfl hc.symm hst
  constructor
  · intro u hu
    rw [hts] at hu
    rcases mem_set_ts hu with rfl | hu
    · exact hcur
    · exact f.cur u hu
  · intro u hu
    rw [hts] at hu
    rcases mem_set_ts hu with rfl | hu
    · exact hout
    · exact f.out u hu

/-! ## Searches while nobody inserts -/

/-- What is known of a search of an unchanging trie. -/
def Reads (h0 : Heap T) : Spot T → Prop
  | .enter q _ res => ∀ d ∈ res, ∃ x, d = some x ∧ q.cb d = .ok true
  | .test q n _ res => (∀ d ∈ res, ∃ x, d = some x ∧ q.cb d = .ok true) ∧
      ∃ a : Cell T, h0[n]? = some a ∧ a.isEnd = true
  | .take q n _ res => (∀ d ∈ res, ∃ x, d = some x ∧ q.cb d = .ok true) ∧
      ∃ a : Cell T, h0[n]? = some a ∧ a.isEnd = true ∧ q.cb a.data = .ok true
  | .spread q _ _ res => ∀ d ∈ res, ∃ x, d = some x ∧ q.cb d = .ok true
  | _ => False

theorem reads_step {h0 h' : Heap T} {s : Spot T} {nx : Next T} {q0 : Query T}
    (hg : ∀ (n : Nat) (a : Cell T), h0[n]? = some a → a.isEnd = a.data.isSome)
    (ho : ∀ (q : Query T), (∃ todo res, s = .enter q todo res) ∨ (∃ n todo res, s = .test q n todo res) ∨
      (∃ n todo res, s = .take q n todo res) ∨ (∃ n todo res, s = .spread q n todo res) → q = q0)
    (hq : ∀ x, ∃ b, q0.cb (some x) = .ok b) (w : Reads h0 s) (e : s.step h0 = some (h', nx)) :
    h' = h0 ∧ (∀ s', nx = .at s' → Reads h0 s') ∧
    ∀ res, nx = .ret res → ∀ d ∈ res, ∃ x, d = some x ∧ q0.cb d = .ok true := by
  cases s with
  | down y n ks => exact w.elim
  | make y n k ks => exact w.elim
  | save y n => exact w.elim
  | dead => exact w.elim
  | enter q todo res =>
    have hqq := ho q (Or.inl ⟨_, _, rfl⟩)
    subst hqq
    cases todo with
    | nil =>
      cases e
      refine ⟨rfl, nofun, fun res' hr => ?_⟩
      cases hr
      exact w
    | cons n todo =>
      simp only [Spot.step] at e
      split at e
      · cases e
      · rename_i a ha
        cases e
        refine ⟨rfl, fun s' hs => ?_, nofun⟩
        cases hs
        split
        · rename_i hend
          exact ⟨w, a, ha, hend⟩
        · exact w
  | test q n todo res =>
    have hqq := ho q (Or.inr (Or.inl ⟨_, _, _, rfl⟩))
    subst hqq
    obtain ⟨w1, a0, ha0, hend⟩ := w
    simp only [Spot.step] at e
    split at e
    · cases e
    · rename_i a ha
      rw [ha0] at ha; cases ha
      obtain ⟨x, hx⟩ := Option.isSome_iff_exists.1 ((hg n a0 ha0).symm.trans hend)
      obtain ⟨b, hb⟩ := hq x
      rw [hx, hb] at e
      cases b with
      | true =>
        cases e
        exact ⟨rfl, fun s' hs => by cases hs; exact ⟨w1, a0, ha0, hend, by rw [hx]; exact hb⟩, nofun⟩
      | false =>
        cases e
        exact ⟨rfl, fun s' hs => by cases hs; exact w1, nofun⟩
  | take q n todo res =>
    have hqq := ho q (Or.inr (Or.inr (Or.inl ⟨_, _, _, rfl⟩)))
    subst hqq
    obtain ⟨w1, a0, ha0, hend, hcb⟩ := w
    obtain ⟨x, hx⟩ := Option.isSome_iff_exists.1 ((hg n a0 ha0).symm.trans hend)
    have hnew : ∀ d ∈ res ++ [a0.data], ∃ x, d = some x ∧ q.cb d = .ok true := by
      intro d hd
      rcases List.mem_append.1 hd with hd | hd
      · exact w1 d hd
      · rw [List.mem_singleton] at hd
        subst hd
        exact ⟨x, hx, hcb⟩
    simp only [Spot.step] at e
    split at e
    · cases e
    · rename_i a ha
      rw [ha0] at ha; cases ha
      split at e
      · cases e
        exact ⟨rfl, nofun, fun res' hr => by cases hr; exact hnew⟩
      · cases e
        exact ⟨rfl, fun s' hs => by cases hs; exact hnew, nofun⟩
  | spread q n todo res =>
    simp only [Spot.step] at e
    split at e
    · cases e
    · cases e
      exact ⟨rfl, fun s' hs => by cases hs; exact w, nofun⟩

/-! ## Searches while rows are only replaced -/

/-- Every row found matches. -/
def Hits (q : Query T) (res : List (Option T)) : Prop := ∀ d ∈ res, ∃ x, d = some x ∧ q.cb d = .ok true

def Exact (keys : T → List Val) (h0 : Heap T) (path : Nat → List Val) : Spot T → Prop
  | .down _ n ks => ∃ r, ∃ c0 : Cell T, h0.walk (strip ks) n = some r ∧ h0[r]? = some c0 ∧ c0.data.isSome
  | .make _ _ _ _ => False
  | .save _ n => ∃ c0 : Cell T, h0[n]? = some c0 ∧ c0.data.isSome
  | .enter q _ res => Hits q res
  | .test q _ _ res => Hits q res
  | .take q n _ res => Hits q res ∧ ∀ y, key keys y = path n → q.cb (some y) = .ok true
  | .spread q _ _ res => Hits q res
  | .dead => False

structure Calm (keys : T → List Val) (h0 : Heap T) (calls : List (List (Call T))) (c : Conf T)
    (path : Nat → List Val) : Prop where
  inv : Inv keys h0 c path
  prog : ∀ (j : Nat) (t : Thread T), c.ts[j]? = some t → calls[j]? = some (t.begun ++ t.todo)
  firm : ∀ (n : Nat) (a : Cell T), c.heap[n]? = some a → a.isEnd = a.data.isSome
  data : ∀ (n : Nat) (c0 : Cell T), h0[n]? = some c0 → c0.data.isSome →
    ∃ a : Cell T, c.heap[n]? = some a ∧ a.data.isSome
  cur : ∀ t ∈ c.ts, ∀ call s, t.cur = some (call, s) → Exact keys h0 path s
  out : ∀ t ∈ c.ts, ∀ e ∈ t.out, ∀ q, e.1 = .search q → Hits q e.2

theorem Exact.later {keys : T → List Val} {h0 h h' : Heap T} {path path' : Nat → List Val} {B : T → Prop}
    {call : Call T} {s : Spot T} (o : SpotOk keys h0 h path B call s) (l : Later h path h' path')
    (x : Exact keys h0 path s) : Exact keys h0 path' s := by
  cases s with
  | take q n todo res =>
    simp only [Exact] at x ⊢
    rw [l.path n (o.2.1.seen n List.mem_cons_self).1]; exact x
  | down y n ks => exact x
  | make y n k ks => exact x
  | save y n => exact x
  | enter q todo res => exact x
  | test q n todo res => exact x
  | spread q n todo res => exact x
  | dead => exact x

theorem exact_step {keys : T → List Val} {h0 h h' : Heap T} {path : Nat → List Val} {B : T → Prop}
    {call : Call T} {s : Spot T} {nx : Next T}
    (sh : Shape keys h path) (si : Since h0 h)
    (hf : ∀ (n : Nat) (a : Cell T), h[n]? = some a → a.isEnd = a.data.isSome)
    (hd : ∀ (n : Nat) (c0 : Cell T), h0[n]? = some c0 → c0.data.isSome → ∃ a : Cell T, h[n]? = some a ∧ a.data.isSome)
    (hq : ∀ q, call = .search q → q.Fair keys)
    (o : SpotOk keys h0 h path B call s) (x : Exact keys h0 path s) (e : s.step h = some (h', nx)) :
    (∀ (n : Nat) (a : Cell T), h'[n]? = some a → a.isEnd = a.data.isSome) ∧
    (∀ s', nx = .at s' → Exact keys h0 path s') ∧
    ∀ res, nx = .ret res → ∀ q, call = .search q → Hits q res := by
  cases s with
  | down y n ks =>
    obtain ⟨r, c0, h1, h2, h3⟩ := x
    cases ks with
    | nil =>
      simp only [strip, List.filter_nil, Heap.walk, Option.some.injEq] at h1
      subst h1
      cases e
      refine ⟨?_, fun s' hs => ?_, nofun⟩
      · intro m a ha
        rw [get_edit] at ha
        split at ha
        · rename_i hnm
          subst hnm
          rw [Option.map_eq_some_iff] at ha
          obtain ⟨a0, h4, rfl⟩ := ha
          obtain ⟨a1, h5, h6⟩ := hd n c0 h2 h3
          rw [h4] at h5; cases h5
          exact h6.symm
        · exact hf m a ha
      · cases hs; exact ⟨c0, h2, h3⟩
    | cons k ks =>
      simp only [Spot.step] at e
      split at e
      · rename_i hk
        cases e
        refine ⟨hf, fun s' hs => ?_, nofun⟩
        cases hs
        exact ⟨r, c0, by simpa [strip, hk] using h1, h2, h3⟩
      · rename_i hk
        have hs : strip (k :: ks) = k :: strip ks := by simp [strip, hk]
        rw [hs] at h1
        simp only [Heap.walk] at h1
        split at h1
        · cases h1
        · rename_i a0 ha0
          split at h1
          · cases h1
          · rename_i m hm
            obtain ⟨a, h4, h5⟩ := si.keep n a0 k m ha0 hm
            simp only [h4, h5] at e
            cases e
            refine ⟨hf, fun s' hs => ?_, nofun⟩
            cases hs
            exact ⟨r, c0, h1, h2, h3⟩
  | make y n k ks => exact x.elim
  | save y n =>
    cases e
    obtain ⟨_, _, _, a1, h1, h2⟩ := o
    refine ⟨?_, nofun, fun res hr q _ => ?_⟩
    · intro m a ha
      rw [get_edit] at ha
      split at ha
      · rename_i hnm
        subst hnm
        rw [Option.map_eq_some_iff] at ha
        obtain ⟨a0, h4, rfl⟩ := ha
        rw [h1] at h4; cases h4
        exact h2
      · exact hf m a ha
    · cases hr; intro d hd; cases hd
  | enter q todo res =>
    cases todo with
    | nil =>
      cases e
      refine ⟨hf, nofun, fun res' hr q' hc => ?_⟩
      cases hr
      rw [o.1] at hc; cases hc
      exact x
    | cons n todo =>
      simp only [Spot.step] at e
      split at e
      · cases e
      · cases e
        refine ⟨hf, fun s' hs => ?_, nofun⟩
        cases hs
        split <;> exact x
  | test q n todo res =>
    obtain ⟨a, s, ⟨c1, hm1, hm2⟩⟩ := o
    have hfair := hq q a
    simp only [Spot.step, hm1] at e
    have hds := hf n c1 hm1
    rw [hm2] at hds
    obtain ⟨y, hy⟩ := Option.isSome_iff_exists.1 hds.symm
    obtain ⟨b, hb⟩ := hfair.1 y
    rw [hy, hb] at e
    cases b with
    | true =>
      cases e
      refine ⟨hf, fun s' hs => ?_, nofun⟩
      cases hs
      refine ⟨x, fun z hz => ?_⟩
      rw [← hb]
      exact hfair.2 z y (hz.trans (sh.data n c1 y hm1 hy).symm)
    | false =>
      cases e
      refine ⟨hf, fun s' hs => ?_, nofun⟩
      cases hs
      exact x
  | take q n todo res =>
    obtain ⟨a, s, ⟨c1, hm1, hm2⟩⟩ := o
    obtain ⟨x1, x2⟩ := x
    have hds := hf n c1 hm1
    rw [hm2] at hds
    obtain ⟨y, hy⟩ := Option.isSome_iff_exists.1 hds.symm
    have hits : Hits q (res ++ [c1.data]) := by
      intro d hd
      rcases List.mem_append.1 hd with hd | hd
      · exact x1 d hd
      · rw [List.mem_singleton] at hd
        rw [hd, hy]
        exact ⟨y, rfl, x2 y (sh.data n c1 y hm1 hy)⟩
    simp only [Spot.step, hm1] at e
    split at e
    · cases e
      refine ⟨hf, nofun, fun res' hr q' hc => ?_⟩
      cases hr
      rw [a] at hc; cases hc
      exact hits
    · cases e
      refine ⟨hf, fun s' hs => ?_, nofun⟩
      cases hs
      exact hits
  | spread q n todo res =>
    simp only [Spot.step] at e
    split at e
    · cases e
    · cases e
      refine ⟨hf, fun s' hs => ?_, nofun⟩
      cases hs
      exact x
  | dead => exact x.elim

theorem calm_step {keys : T → List Val} {h0 : Heap T} {calls : List (List (Call T))}
    (rp : Replaces keys h0 calls) (hq : ∀ l ∈ calls, ∀ q, Call.search q ∈ l → q.Fair keys)
    {c c' : Conf T} {path : Nat → List Val} {i : Nat}
    (v : Calm keys h0 calls c path) (e : c.step keys i = some c') : ∃ path', Calm keys h0 calls c' path' := by
  obtain ⟨path', v', l⟩ := inv_step v.inv e
  suffices h : (∀ (n : Nat) (a : Cell T), c'.heap[n]? = some a → a.isEnd = a.data.isSome) ∧
      (∀ (n : Nat) (c0 : Cell T), h0[n]? = some c0 → c0.data.isSome →
        ∃ a : Cell T, c'.heap[n]? = some a ∧ a.data.isSome) ∧
      (∀ t ∈ c'.ts, ∀ call s, t.cur = some (call, s) → Exact keys h0 path' s) ∧
      (∀ t ∈ c'.ts, ∀ e ∈ t.out, ∀ q, e.1 = .search q → Hits q e.2) from
    ⟨path', v', prog_step v.prog e, h.1, h.2.1, h.2.2.1, h.2.2.2⟩
  obtain ⟨t, t', ht, hts, hk⟩ := conf_step e
  have hm : t ∈ c.ts := List.mem_of_getElem? ht
  have hdata : ∀ (n : Nat) (c0 : Cell T), h0[n]? = some c0 → c0.data.isSome →
      ∃ a : Cell T, c'.heap[n]? = some a ∧ a.data.isSome := by
    intro n c0 h1 h2
    obtain ⟨a, h3, h4⟩ := v.data n c0 h1 h2
    obtain ⟨a', h5, _, h6⟩ := l.cell n a h3
    exact ⟨a', h5, h6 h4⟩
  have hfair : ∀ call s, t.cur = some (call, s) → ∀ q, call = .search q → q.Fair keys := by
    rintro call s hc q rfl
    obtain ⟨j, hj⟩ := List.getElem?_of_mem hm
    exact hq _ (List.mem_of_getElem? (v.prog j t hj)) q
      (List.mem_append_left _ (by simp [Thread.begun, hc]))
  have hold : ∀ u ∈ c.ts, ∀ call s, u.cur = some (call, s) → Exact keys h0 path' s :=
    fun u hu call s hs => (v.cur u hu call s hs).later (v.inv.spot u hu call s hs) l
  rcases hk with ⟨call, rest, h1, h2, hh, rfl⟩ | ⟨call, s, s', h1, h2, rfl⟩ | ⟨call, s, res, h1, h2, rfl⟩
  · refine ⟨by rw [hh]; exact v.firm, hdata, ?_, ?_⟩
    · intro u hu call' s hs
      rw [hts] at hu
      rcases mem_set_ts hu with rfl | hu
      · cases hs
        cases call with
        | insert x =>
          obtain ⟨j, hj⟩ := List.getElem?_of_mem hm
          have hx : x ∈ rows (t.begun ++ t.todo) := mem_rows.2 (by rw [h2]; simp)
          have := rp _ (List.mem_of_getElem? (v.prog j t hj)) x hx
          obtain ⟨y, hy⟩ := Option.isSome_iff_exists.1 this
          unfold Heap.row at hy
          rw [Option.bind_eq_some_iff] at hy
          obtain ⟨r, hr, hy⟩ := hy
          rw [Option.bind_eq_some_iff] at hy
          obtain ⟨c0, hc0, hy⟩ := hy
          exact ⟨r, c0, hr, hc0, by rw [hy]; rfl⟩
        | search q => intro d hd; cases hd
      · exact hold u hu call' s hs
    · intro u hu
      rw [hts] at hu
      rcases mem_set_ts hu with rfl | hu
      · exact v.out t hm
      · exact v.out u hu
  · obtain ⟨ha, hb, _⟩ := exact_step v.inv.shape v.inv.since v.firm v.data (hfair call s h1)
      (v.inv.spot t hm call s h1) (v.cur t hm call s h1) h2
    refine ⟨ha, hdata, ?_, ?_⟩
    · intro u hu call' s2 hs
      rw [hts] at hu
      rcases mem_set_ts hu with rfl | hu
      · cases hs
        have hx := hb s' rfl
        cases s' with
        | take q n todo res =>
          have hn : n < c.heap.length := by
            cases s with
            | test q n todo res =>
              simp only [Spot.step] at h2
              split at h2
              · cases h2
              · rename_i a ha'
                split at h2
                · have hnx := congrArg (fun o => o.map (·.2)) h2
                  simp only [Option.map_some, Option.some.injEq, Next.at.injEq, Spot.take.injEq] at hnx
                  rw [← hnx.2.1]; exact lt_of_get ha'
                · have hnx := congrArg (fun o => o.map (·.2)) h2
                  simp at hnx
                · have hnx := congrArg (fun o => o.map (·.2)) h2
                  simp at hnx
                · cases h2
            | down y m ks =>
              exfalso
              rcases step_cases h2 with ⟨he, _⟩ | ⟨_, _, _, _, hn⟩ | ⟨_, _, _, _, h, _⟩ | ⟨_, _, h, _⟩
              · cases ks with
                | nil => have hnx := congrArg (fun o => o.map (·.2)) h2; simp [Spot.step] at hnx
                | cons k ks =>
                  simp only [Spot.step] at h2
                  split at h2
                  · have hnx := congrArg (fun o => o.map (·.2)) h2; simp at hnx
                  · split at h2
                    · cases h2
                    · split at h2 <;> (have hnx := congrArg (fun o => o.map (·.2)) h2; simp at hnx)
              · cases hn
              · cases h
              · cases h
            | make y m k ks => have hnx := congrArg (fun o => o.map (·.2)) h2; simp [Spot.step] at hnx
            | save y m => cases save_ret h2
            | enter q' todo' res' =>
              exfalso
              cases todo' with
              | nil => have hnx := congrArg (fun o => o.map (·.2)) h2; simp [Spot.step] at hnx
              | cons m todo' =>
                simp only [Spot.step] at h2
                split at h2
                · cases h2
                · have hnx := congrArg (fun o => o.map (·.2)) h2
                  simp only [Option.map_some, Option.some.injEq, Next.at.injEq] at hnx
                  split at hnx <;> cases hnx
            | take q' m todo' res' =>
              exfalso
              simp only [Spot.step] at h2
              split at h2
              · cases h2
              · split at h2 <;> (have hnx := congrArg (fun o => o.map (·.2)) h2; simp at hnx)
            | spread q' m todo' res' =>
              exfalso
              simp only [Spot.step] at h2
              split at h2
              · cases h2
              · have hnx := congrArg (fun o => o.map (·.2)) h2; simp at hnx
            | dead => cases h2
          simp only [Exact] at hx ⊢
          rw [l.path n hn]; exact hx
        | down y n ks => exact hx
        | make y n k ks => exact hx
        | save y n => exact hx
        | enter q todo res => exact hx
        | test q n todo res => exact hx
        | spread q n todo res => exact hx
        | dead => exact hx
      · exact hold u hu call' s2 hs
    · intro u hu
      rw [hts] at hu
      rcases mem_set_ts hu with rfl | hu
      · exact v.out t hm
      · exact v.out u hu
  · obtain ⟨ha, _, hb⟩ := exact_step v.inv.shape v.inv.since v.firm v.data (hfair call s h1)
      (v.inv.spot t hm call s h1) (v.cur t hm call s h1) h2
    refine ⟨ha, hdata, ?_, ?_⟩
    · intro u hu call' s2 hs
      rw [hts] at hu
      rcases mem_set_ts hu with rfl | hu
      · cases hs
      · exact hold u hu call' s2 hs
    · intro u hu
      rw [hts] at hu
      rcases mem_set_ts hu with rfl | hu
      · intro en hen
        rcases List.mem_append.1 hen with hen | hen
        · exact v.out t hm en hen
        · rw [List.mem_singleton] at hen
          subst hen
          exact hb res rfl
      · exact v.out u hu

end TC
end Verif
