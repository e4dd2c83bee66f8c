import Mathlib.Data.List.Basic
import Verif.Model.V1Map

/-!
# The unprotected map of v1 (C105)
-/

namespace Verif
namespace VM

/-- The calls a goroutine has still to finish. -/
def Thread.open_ (t : Thread) : List Call := t.cur.toList.map (·.1) ++ t.todo

theorem run_append (c : Conf) (is js : List Nat) : c.run (is ++ js) = (c.run is).run js := by
  induction is generalizing c with
  | nil => rfl
  | cons i is ih => exact ih _

/-- What holds in every run. -/
structure Inv (keys : List Str) (calls : List (List Call)) (c : Conf) : Prop where
  grow : ∀ h ∈ keys, h ∈ c.keys
  new : ∀ h ∈ c.keys, h ∈ keys ∨ ∃ l ∈ calls, Call.assign h ∈ l
  todo : ∀ (i : Nat) (t : Thread), c.ts[i]? = some t → ∃ l, calls[i]? = some l ∧ ∀ k ∈ t.open_, k ∈ l
  write : ∀ (i : Nat) (t : Thread) (k : Call) (s : Spot), c.ts[i]? = some t → t.cur = some (k, s) → s = .missing ∨ s = .writing → ∃ h, k = .assign h ∧ h ∉ keys

theorem inv_start {keys : List Str} {calls : List (List Call)} : Inv keys calls (Conf.start keys calls) := by
  refine ⟨fun _ h => h, fun _ h => .inl h, ?_, ?_⟩
  · intro i t ht
    simp only [Conf.start, List.getElem?_map, Option.map_eq_some_iff] at ht
    obtain ⟨l, hl, rfl⟩ := ht
    exact ⟨l, hl, by simp [Thread.open_]⟩
  · intro i t k s ht hc
    simp only [Conf.start, List.getElem?_map, Option.map_eq_some_iff] at ht
    obtain ⟨l, hl, rfl⟩ := ht
    cases hc

theorem inv_step {keys : List Str} {calls : List (List Call)} {c : Conf} (v : Inv keys calls c) (i : Nat) :
    Inv keys calls (c.step i) := by
  unfold Conf.step
  split
  · exact v
  · rename_i t ht
    have hl := (List.getElem?_eq_some_iff.1 ht).1
    obtain ⟨l, hl1, hl2⟩ := v.todo i t ht
    have get : ∀ t' j u, (c.ts.set i t')[j]? = some u → (j = i ∧ u = t') ∨ c.ts[j]? = some u := by
      intro t' j u hu
      by_cases hij : i = j
      · subst hij; rw [List.getElem?_set_self hl] at hu; exact .inl ⟨rfl, (Option.some.inj hu).symm⟩
      · rw [List.getElem?_set_ne hij] at hu; exact .inr hu
    split
    · rename_i hc
      split
      · exact v
      · rename_i call rest hr
        refine ⟨v.grow, v.new, ?_, ?_⟩
        · intro j u hu
          rcases get _ j u hu with ⟨rfl, rfl⟩ | hu
          · exact ⟨l, hl1, fun k hk => hl2 k (by simpa [Thread.open_, hc, hr] using hk)⟩
          · exact v.todo j u hu
        · intro j u k s hu hk hs
          rcases get _ j u hu with ⟨rfl, rfl⟩ | hu
          · cases hk; rcases hs with hs | hs <;> cases hs
          · exact v.write j u k s hu hk hs
    · rename_i call s hc
      have hcall : call ∈ l := hl2 call (by simp [Thread.open_, hc])
      have hkeys : ∀ h, h ∈ (step1 c.keys call s).1 ↔ h ∈ c.keys ∨ (call = .assign h ∧ s = .writing) := by
        intro h
        cases s <;> cases call <;> simp only [step1] <;> try simp
        · split <;> simp
        · split
          · rename_i a ha
            constructor
            · exact .inl
            · rintro (h1 | rfl)
              · exact h1
              · exact ha
          · simp [eq_comm]
      refine ⟨fun h hh => (hkeys h).2 (.inl (v.grow h hh)), ?_, ?_, ?_⟩
      · intro h hh
        rcases (hkeys h).1 hh with hh | ⟨rfl, _⟩
        · exact v.new h hh
        · exact .inr ⟨l, List.mem_of_getElem? hl1, hcall⟩
      · intro j u hu
        rcases get _ j u hu with ⟨rfl, rfl⟩ | hu
        · refine ⟨l, hl1, fun k hk => hl2 k ?_⟩
          simp only [Thread.open_, List.mem_append, List.mem_map, Option.mem_toList, Option.map_eq_some_iff] at hk ⊢
          rcases hk with ⟨x, ⟨s', _, rfl⟩, rfl⟩ | hk
          · exact .inl ⟨_, hc, rfl⟩
          · exact .inr hk
        · exact v.todo j u hu
      · intro j u k s' hu hk hs
        rcases get _ j u hu with ⟨rfl, rfl⟩ | hu
        · obtain ⟨s2, h2, h3⟩ := Option.map_eq_some_iff.1 hk
          cases h3
          cases s with
          | ready => cases call <;> (simp only [step1, Option.some.injEq] at h2; subst h2; simp at hs)
          | reading =>
            cases call with
            | scan => simp [step1] at h2
            | assign h =>
              simp only [step1] at h2
              split at h2
              · cases h2
              · rename_i hn
                exact ⟨h, rfl, fun hh => hn (v.grow h hh)⟩
          | missing => exact v.write j t _ _ ht hc (.inl rfl)
          | writing => cases call <;> simp [step1] at h2
        · exact v.write j u k s' hu hk hs

theorem inv_run {keys : List Str} {calls : List (List Call)} {c : Conf} (v : Inv keys calls c) (is : List Nat) :
    Inv keys calls (c.run is) := by
  induction is generalizing c with
  | nil => exact v
  | cons i is ih => exact ih (inv_step v i)

theorem step_other {c : Conf} {i j : Nat} (h : i ≠ j) : (c.step i).ts[j]? = c.ts[j]? := by
  unfold Conf.step
  split
  · rfl
  · split
    · split
      · rfl
      · exact List.getElem?_set_ne h
    · exact List.getElem?_set_ne h

theorem run_other {c : Conf} {i j : Nat} (h : i ≠ j) (n : Nat) : (c.run (List.replicate n i)).ts[j]? = c.ts[j]? := by
  induction n generalizing c with
  | zero => rfl
  | succ n ih =>
    rw [List.replicate_succ, Conf.run, ih, step_other h]

/-- A goroutine with an assignment that is not stored yet comes to write. -/
theorem comes_to_write {i : Nat} {l : List Call} : ∀ {c : Conf}, c.ts[i]? = some { todo := l } → (∃ h, Call.assign h ∈ l ∧ h ∉ c.keys) →
    ∃ n t, (c.run (List.replicate n i)).ts[i]? = some t ∧ t.InWrite := by
  induction l with
  | nil => rintro c _ ⟨h, hh, _⟩; cases hh
  | cons k l ih =>
    intro c hc hex
    have hl := (List.getElem?_eq_some_iff.1 hc).1
    have s1 : c.step i = { c with ts := c.ts.set i { cur := some (k, .ready), todo := l } } := by
      unfold Conf.step; rw [hc]
    have g1 : (c.step i).ts[i]? = some { cur := some (k, .ready), todo := l } := by
      rw [s1]; exact List.getElem?_set_self hl
    have k1 : (c.step i).keys = c.keys := by rw [s1]
    have move : ∀ {d : Conf} {s : Spot}, d.ts[i]? = some { cur := some (k, s), todo := l } →
        (d.step i).keys = (step1 d.keys k s).1 ∧
        (d.step i).ts[i]? = some { cur := (step1 d.keys k s).2.map fun s' => (k, s'), todo := l } := by
      intro d s hd
      have hl := (List.getElem?_eq_some_iff.1 hd).1
      unfold Conf.step; rw [hd]
      exact ⟨rfl, List.getElem?_set_self hl⟩
    obtain ⟨k2, g2⟩ := move g1
    obtain ⟨k3, g3⟩ := move (d := (c.step i).step i) (s := .reading) g2
    rw [k2] at k3 g3
    have e2 : (step1 (c.step i).keys k .ready).1 = c.keys := k1
    rw [e2] at k3 g3
    cases k with
    | scan =>
      simp only [step1] at k3 g3
      have hex' : ∃ h, Call.assign h ∈ l ∧ h ∉ (((c.step i).step i).step i).keys := by
        obtain ⟨h, hh, hn⟩ := hex
        rw [k3]
        exact ⟨h, by simpa using hh, hn⟩
      obtain ⟨n, t, h1, h2⟩ := ih g3 hex'
      exact ⟨n + 3, t, by rw [Nat.add_comm, List.replicate_add, run_append]; exact h1, h2⟩
    | assign h0 =>
      simp only [step1] at k3 g3
      by_cases h0m : h0 ∈ c.keys
      · rw [if_pos h0m] at k3 g3
        have hex' : ∃ h, Call.assign h ∈ l ∧ h ∉ (((c.step i).step i).step i).keys := by
          obtain ⟨h, hh, hn⟩ := hex
          rw [k3]
          rcases List.mem_cons.1 hh with e | hh
          · cases e; exact absurd h0m hn
          · exact ⟨h, hh, hn⟩
        obtain ⟨n, t, h1, h2⟩ := ih g3 hex'
        exact ⟨n + 3, t, by rw [Nat.add_comm, List.replicate_add, run_append]; exact h1, h2⟩
      · rw [if_neg h0m] at g3
        obtain ⟨_, g4⟩ := move (d := ((c.step i).step i).step i) (s := .missing) g3
        exact ⟨4, _, g4, _, rfl⟩

/-- C105. Exactly when goroutines can race on the map: when one of them assigns something that is not stored yet and another makes
any call at all. -/
theorem C105_exact (keys : List Str) (calls : List (List Call)) :
    (∃ is, ((Conf.start keys calls).run is).Race) ↔
      ∃ (i j : Nat) (l m : List Call), i ≠ j ∧ calls[i]? = some l ∧ calls[j]? = some m ∧ (∃ h, Call.assign h ∈ l ∧ h ∉ keys) ∧ m ≠ [] := by
  constructor
  · rintro ⟨is, i, j, t, u, hij, ht, hu, ⟨k, hk⟩, ⟨k', hk'⟩⟩
    have v := inv_run (inv_start (keys := keys) (calls := calls)) is
    obtain ⟨l, hl, hl2⟩ := v.todo i t ht
    obtain ⟨m, hm, hm2⟩ := v.todo j u hu
    obtain ⟨h, rfl, hn⟩ := v.write i t k _ ht hk (.inr rfl)
    refine ⟨i, j, l, m, hij, hl, hm, ⟨h, hl2 _ (by simp [Thread.open_, hk]), hn⟩, ?_⟩
    have : k' ∈ m := hm2 _ (by rcases hk' with h | h <;> simp [Thread.open_, h])
    exact List.ne_nil_of_mem this
  · rintro ⟨i, j, l, m, hij, hl, hm, hex, hne⟩
    obtain ⟨n, t, h1, h2⟩ := comes_to_write (i := i) (l := l) (c := Conf.start keys calls)
      (by simp [Conf.start, hl]) hex
    obtain ⟨k, m', rfl⟩ := List.exists_cons_of_ne_nil hne
    have hj : ((Conf.start keys calls).run (List.replicate n i)).ts[j]? = some { todo := k :: m' } := by
      rw [run_other hij]; simp [Conf.start, hm]
    refine ⟨List.replicate n i ++ [j, j], ?_⟩
    rw [run_append]
    generalize (Conf.start keys calls).run (List.replicate n i) = c at h1 hj
    have hl := (List.getElem?_eq_some_iff.1 hj).1
    have g1 : (c.step j).ts[j]? = some { cur := some (k, .ready), todo := m' } := by
      unfold Conf.step; rw [hj]; exact List.getElem?_set_self hl
    have hl2 := (List.getElem?_eq_some_iff.1 g1).1
    have g2 : ((c.step j).step j).ts[j]? = some { cur := some (k, .reading), todo := m' } := by
      rw [Conf.step, g1]
      simp only
      rw [List.getElem?_set_self hl2]
      simp [step1]
    refine ⟨i, j, t, _, hij, ?_, g2, h2, ⟨k, .inl rfl⟩⟩
    rw [Conf.run, Conf.run, Conf.run, step_other (fun e => hij e.symm), step_other (fun e => hij e.symm)]
    exact h1

/-- C105 as claimed. -/
def C105_full : Prop := ∀ (keys : List Str) (calls : List (List Call)) (is : List Nat), ¬ ((Conf.start keys calls).run is).Race

/-- C105 is violated: one goroutine assigns a role, another makes a decision. -/
theorem C105_counterexample : ((Conf.start [] [[.assign (str "p_r_t___true")], [.scan]]).run [0, 0, 0, 0, 1, 1]).Race :=
  ⟨0, 1, ⟨some (.assign (str "p_r_t___true"), .writing), []⟩, ⟨some (.scan, .reading), []⟩, by decide, by decide, by decide,
    ⟨_, rfl⟩, ⟨_, .inl rfl⟩⟩

theorem C105_full_false : ¬ C105_full := fun hf => hf _ _ _ C105_counterexample

/-- C105, partial: there is no race, and the assignments stay as they are, while everything assigned is stored already; reading
and deciding never races with itself.  Missing: new assignments (false, see `C105_exact`). -/
theorem C105_stored_partial {keys : List Str} {calls : List (List Call)} (hs : ∀ l ∈ calls, ∀ h, Call.assign h ∈ l → h ∈ keys)
    (is : List Nat) :
    ¬ ((Conf.start keys calls).run is).Race ∧ ∀ h, h ∈ ((Conf.start keys calls).run is).keys ↔ h ∈ keys := by
  refine ⟨fun hr => ?_, fun h => ?_⟩
  · obtain ⟨i, j, l, m, _, hl, _, ⟨h, h1, h2⟩, _⟩ := (C105_exact keys calls).1 ⟨is, hr⟩
    exact h2 (hs l (List.mem_of_getElem? hl) h h1)
  · have v := inv_run (inv_start (keys := keys) (calls := calls)) is
    refine ⟨fun hh => ?_, v.grow h⟩
    rcases v.new h hh with hh | ⟨l, hl, hh⟩
    · exact hh
    · exact hs l hl h hh

/-- C105. Only given assignments appear and none disappears, race or not (as far as the map survives it). -/
theorem C105_only (keys : List Str) (calls : List (List Call)) (is : List Nat) (h : Str) :
    (h ∈ keys → h ∈ ((Conf.start keys calls).run is).keys) ∧
    (h ∈ ((Conf.start keys calls).run is).keys → h ∈ keys ∨ ∃ l ∈ calls, Call.assign h ∈ l) :=
  ⟨(inv_run (inv_start (keys := keys) (calls := calls)) is).grow h, (inv_run (inv_start (keys := keys) (calls := calls)) is).new h⟩

/-- Two goroutines assign what is stored, a third reads. -/
example : (∀ l ∈ [[Call.assign (str "a")], [.assign (str "a"), .scan], [.scan]], ∀ h, Call.assign h ∈ l → h ∈ [str "a"]) ∧
    ((Conf.start [str "a"] [[.assign (str "a")], [.assign (str "a"), .scan], [.scan]]).run
      (List.replicate 7 [0, 1, 2]).flatten).ts.all (fun t => t.cur.isNone && t.todo.isEmpty) := by
  refine ⟨?_, by decide +kernel⟩
  simp

end VM
end Verif
