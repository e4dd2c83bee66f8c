import Verif.Model.RoleRace
import Verif.Props.ConcEnd

/-!
# Data races on the lock flag of a role (C109)
-/

namespace Verif
namespace GC

/-- The role whose `lock` a call looks at or changes: all calls on a role do. -/
def Call.guards : Call → Option Nat
  | .grant r _ _ => some r
  | .addGroup r _ => some r
  | .descend r _ => some r
  | .setLock r _ => some r
  | .fill _ _ => none

theorem first_plain {call : Call} {r : Nat} (h : call.guards = some r) :
    ∃ b, plain call call.first = some (r, b) := by
  cases call <;> cases h <;> exact ⟨_, rfl⟩

theorem plain_guards {call : Call} {s : Spot} {r : Nat} {b : Bool} (h : plain call s = some (r, b)) :
    call.guards = some r ∧ (b = true → ∃ v, call = .setLock r v) := by
  cases call <;> cases s <;> cases h <;> exact ⟨rfl, by simp⟩

theorem run_append : ∀ (is js : List Nat) {c c1 c2 : Conf}, c.run is = some c1 → c1.run js = some c2 →
    c.run (is ++ js) = some c2 := by
  intro is
  induction is with
  | nil => intro js c c1 c2 h1 h2; cases h1; exact h2
  | cons i is ih =>
    intro js c c1 c2 h1 h2
    simp only [Conf.run, List.cons_append, Option.bind_eq_some_iff] at h1 ⊢
    obtain ⟨c', h3, h4⟩ := h1
    exact ⟨c', h3, ih js h4 h2⟩

theorem left_less {c c' : Conf} {i : Nat} (e : c.step i = some c') :
    (c'.ts.map Thread.left).sum < (c.ts.map Thread.left).sum := by
  obtain ⟨t, t', ht, _, hts, _, hk⟩ := step_cases e
  have h1 := sum_set Thread.left c.ts i t t' ht
  rw [← hts] at h1
  have h2 : t'.left < t.left := by
    rcases hk with ⟨call, rest, hc, hr, _, rfl⟩ | ⟨call, s, s', hc, a, rfl⟩ | ⟨call, s, res, hc, a, rfl⟩
    · simp only [Thread.left, hc, hr, Option.elim_some, Option.elim_none, List.map_cons, List.sum_cons]; omega
    · have := a.less
      simp only [Next.left] at this
      simp only [Thread.left, hc, Option.elim_some]; omega
    · have := a.less
      simp only [Next.left] at this
      simp only [Thread.left, hc, Option.elim_some, Option.elim_none]; omega
  omega

/-- A goroutine gets to the beginning of any of its calls while the others stand still. -/
theorem reach_call {h0 : RHeap} (ok : Spec.RHeap.OK h0) {calls : List (List Call)}
    (hn : ∀ l ∈ calls, ∀ call ∈ l, call.Named h0) {i : Nat} {l1 l2 : List Call} {call : Call}
    (hl : calls[i]? = some (l1 ++ call :: l2)) :
    ∀ (n : Nat) (is : List Nat) (c : Conf) (t : Thread), (c.ts.map Thread.left).sum = n →
      (Conf.start h0 calls).run is = some c → c.ts[i]? = some t → t.out.length ≤ l1.length →
      (t.out.length = l1.length → t.cur = none ∨ t.cur = some (call, call.first)) →
      ∃ js c' t', (Conf.start h0 calls).run (is ++ js) = some c' ∧ (∀ j, j ≠ i → c'.ts[j]? = c.ts[j]?) ∧
        c'.ts[i]? = some t' ∧ t'.cur = some (call, call.first) := by
  intro n
  induction n using Nat.strongRecOn with
  | _ n ih =>
    intro is c t hs e ht hle hat
    by_cases hq : t.cur = some (call, call.first)
    · exact ⟨[], c, t, by simpa using e, fun _ _ => rfl, ht, hq⟩
    have pr : calls[i]? = some (t.begun ++ t.todo) :=
      run_inv (P := Prog calls) (fun _ _ _ h e => prog_step h e) is (prog_start h0 calls) e i t ht
    rw [hl, Option.some.injEq] at pr
    have hlen := congrArg List.length pr
    simp only [Thread.begun, List.length_append, List.length_cons, List.length_map] at hlen
    obtain ⟨c', e'⟩ := C93_role_moves ok hn e ht (by
      rintro ⟨h1, h2⟩
      rw [h1, h2] at hlen
      simp at hlen
      omega)
    have less := left_less e'
    obtain ⟨u, u', hu, hu', hts, ho, hk⟩ := step_cases e'
    rw [ht] at hu; cases hu
    have hrun : (Conf.start h0 calls).run (is ++ [i]) = some c' := run_append _ _ e (by simp [Conf.run, e'])
    have step : u'.out.length ≤ l1.length ∧
        (u'.out.length = l1.length → u'.cur = none ∨ u'.cur = some (call, call.first)) := by
      rcases hk with ⟨call', rest, h1, h2, _, rfl⟩ | ⟨call', s', s2, h1, h2, rfl⟩ | ⟨call', s', res, h1, h2, rfl⟩
      · refine ⟨hle, fun h => Or.inr ?_⟩
        have h : t.out.length = l1.length := h
        rw [h2] at pr
        have := List.append_inj_right pr (by simp [Thread.begun, h1, h])
        injection this with h3
        rw [h3]
      · refine ⟨hle, fun h => ?_⟩
        rcases hat h with h | h
        · rw [h] at h1; cases h1
        · exact absurd h hq
      · have : t.out.length ≠ l1.length := by
          intro h
          rcases hat h with h | h
          · rw [h] at h1; cases h1
          · exact absurd h hq
        refine ⟨?_, fun _ => Or.inl rfl⟩
        simp only [List.length_append, List.length_singleton]
        omega
    obtain ⟨js, c2, t2, e2, o2, ht2, hc2⟩ := ih _ (by omega) (is ++ [i]) c' u' rfl hrun hu' step.1 step.2
    refine ⟨i :: js, c2, t2, by simpa using e2, fun j hj => (o2 j hj).trans ?_, ht2, hc2⟩
    rw [hts, List.getElem?_set_ne (fun h => hj h.symm)]

/-- The schedules with a race on `lock` of role `r` are given away by the calls: goroutine `i` locks or unlocks the
role, and goroutine `j` locks, unlocks or changes it. -/
theorem C109_exact {h0 : RHeap} (ok : Spec.RHeap.OK h0) {calls : List (List Call)}
    (hn : ∀ l ∈ calls, ∀ call ∈ l, call.Named h0) (i j r : Nat) :
    (∃ is c, (Conf.start h0 calls).run is = some c ∧ c.RaceBy i j r) ↔
      i ≠ j ∧ ∃ (l m : List Call) (v : Bool), calls[i]? = some l ∧ calls[j]? = some m ∧ Call.setLock r v ∈ l ∧
        ∃ call ∈ m, call.guards = some r := by
  constructor
  · rintro ⟨is, c, e, hij, t, u, b, ht, hu, pt, pu⟩
    have pr := run_inv (P := Prog calls) (fun _ _ _ h e => prog_step h e) is (prog_start h0 calls) e
    simp only [Thread.plain, Option.bind_eq_some_iff] at pt pu
    obtain ⟨⟨call, s⟩, hc, pt⟩ := pt
    obtain ⟨⟨call', s'⟩, hc', pu⟩ := pu
    obtain ⟨v, rfl⟩ := (plain_guards pt).2 rfl
    exact ⟨hij, _, _, v, pr i t ht, pr j u hu, List.mem_append_left _ (by simp [Thread.begun, hc]),
      call', List.mem_append_left _ (by simp [Thread.begun, hc']), (plain_guards pu).1⟩
  · rintro ⟨hij, l, m, v, hl, hm, hv, call, hc, hg⟩
    obtain ⟨l1, l2, rfl⟩ := List.append_of_mem hv
    obtain ⟨m1, m2, rfl⟩ := List.append_of_mem hc
    have hti : (Conf.start h0 calls).ts[i]? = some { todo := l1 ++ Call.setLock r v :: l2 } := by simp [Conf.start, hl]
    have htj : (Conf.start h0 calls).ts[j]? = some { todo := m1 ++ call :: m2 } := by simp [Conf.start, hm]
    obtain ⟨is, c1, t1, e1, o1, ht1, hc1⟩ := reach_call ok hn hl _ [] _ _ rfl rfl hti (Nat.zero_le _)
      (fun _ => Or.inl rfl)
    rw [List.nil_append] at e1
    obtain ⟨js, c2, t2, e2, o2, ht2, hc2⟩ := reach_call ok hn hm _ is c1 _ rfl e1
      (by rw [o1 j hij.symm]; exact htj) (Nat.zero_le _) (fun _ => Or.inl rfl)
    obtain ⟨b, hb⟩ := first_plain hg
    refine ⟨_, c2, e2, hij, t1, t2, b, by rw [o2 i hij]; exact ht1, ht2, ?_, ?_⟩
    · simp [Thread.plain, hc1, Call.first, plain]
    · simp only [Thread.plain, hc2, Option.bind_some]; exact hb

/-- The full claim: goroutines using the roles never race. -/
def C109_full : Prop :=
  ∀ (h0 : RHeap) (calls : List (List Call)) (is : List Nat) (c : Conf), Spec.RHeap.OK h0 →
    (∀ l ∈ calls, ∀ call ∈ l, call.Named h0) → (Conf.start h0 calls).run is = some c → ∀ i j r, ¬ c.RaceBy i j r

/-- C109, partial: while no goroutine locks or unlocks a role, or one goroutine does and the others leave the role alone,
there is no race on it. Missing: locking a role in use (false, see `C109_exact`). -/
theorem C109_quiet_partial {h0 : RHeap} (ok : Spec.RHeap.OK h0) {calls : List (List Call)}
    (hn : ∀ l ∈ calls, ∀ call ∈ l, call.Named h0) {r : Nat}
    (hq : ∀ (i j : Nat) (l m : List Call) (v : Bool), i ≠ j → calls[i]? = some l → calls[j]? = some m →
      Call.setLock r v ∈ l → ∀ call ∈ m, call.guards ≠ some r)
    {is : List Nat} {c : Conf} (e : (Conf.start h0 calls).run is = some c) (i j : Nat) : ¬ c.RaceBy i j r := by
  intro h
  obtain ⟨hij, l, m, v, hl, hm, hv, call, hc, hg⟩ := (C109_exact ok hn i j r).1 ⟨is, c, e, h⟩
  exact hq i j l m v hij hl hm hv call hc hg

section examples

/-- One goroutine locks the role, another grants. -/
def exGuard : List (List Call) :=
  [[.setLock 0 true], [.descend 0 [], .grant 0 (str "g") [⟨str "/b", str "GET"⟩]]]

theorem exGuard_named : ∀ l ∈ exGuard, ∀ call ∈ l, call.Named exShared := by
  intro l hl call hc
  simp only [exGuard, List.mem_cons, List.not_mem_nil, or_false] at hl
  rcases hl with rfl | rfl <;> simp only [List.mem_cons, List.not_mem_nil, or_false] at hc
  · subst hc; exact Nat.zero_lt_one
  · rcases hc with rfl | rfl
    · exact ⟨Nat.zero_lt_one, by simp⟩
    · exact Nat.zero_lt_one

/-- C109 is violated: a role is locked while another goroutine changes it. -/
theorem C109_counterexample : ∃ is c, (Conf.start exShared exGuard).run is = some c ∧ c.RaceBy 0 1 0 :=
  (C109_exact exShared_ok exGuard_named 0 1 0).2
    ⟨by decide, _, _, true, rfl, rfl, List.mem_singleton.2 rfl, _, List.mem_cons_self, rfl⟩

theorem C109_full_false : ¬ C109_full := by
  intro h
  obtain ⟨is, c, e, r⟩ := C109_counterexample
  exact h _ _ is c exShared_ok exGuard_named e 0 1 0 r

/-- A schedule with the race, at the second call of the other goroutine. -/
example : ((Conf.start exShared exGuard).run [0, 1, 1, 1, 1]).map (fun c => c.ts.map Thread.plain) =
    some [some (0, true), some (0, false)] := by decide +kernel

/-- `C109_quiet_partial` applies to the grants of `exCalls`. -/
example (is : List Nat) (c : Conf) (e : (Conf.start exShared exCalls).run is = some c) (i j : Nat) :
    ¬ c.RaceBy i j 0 := by
  refine C109_quiet_partial exShared_ok exCalls_named ?_ e i j
  intro i j l m v _ hl _ hv
  have := List.mem_of_getElem? hl
  simp only [exCalls, List.mem_cons, List.not_mem_nil, or_false] at this
  rcases this with rfl | rfl <;> simp at hv

end examples

end GC
end Verif
