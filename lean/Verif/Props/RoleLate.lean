import Verif.Props.RoleLost
import Verif.Props.Role

/-!
C92: the hypothesis `Still` of `C92_locked_partial` cannot be dropped. A call that has passed the
check of the lock is carried out in full, whatever happens to the lock, and whenever one goroutine
grants and another locks, some order of the steps makes the role grant more after `Lock` has returned.
-/

namespace Verif
namespace GC
open List

/-- The same objects with the lock of role `r` set to `b`. -/
def relock (h : RHeap) (r : Nat) (b : Bool) : RHeap :=
  { h with roles := h.roles.modify r fun ro => { ro with lock := b } }

theorem relock_get {h : RHeap} {r : Nat} {b : Bool} (x : Nat) :
    (relock h r b).roles[x]? = (h.roles[x]?).map fun ro => if x = r then { ro with lock := b } else ro := by
  simp only [relock, getElem?_modify]
  by_cases hx : x = r
  · subst hx; simp
  · cases h.roles[x]? <;> simp [hx, Ne.symm hx]

theorem relock_set {h : RHeap} {r : Nat} {b : Bool} {x : Nat} {ro : RoleObj} :
    (relock h r b).roles.set x (if x = r then { ro with lock := b } else ro) = (relock { h with roles := h.roles.set x ro } r b).roles := by
  apply ext_getElem?
  intro i
  rw [relock_get]
  show _ = ((h.roles.set x ro)[i]?).map _
  rw [getElem?_set, getElem?_set, relock_get]
  by_cases hi : x = i
  · subst hi
    have : (relock h r b).roles.length = h.roles.length := by simp [relock]
    simp only [if_true, this]
    split <;> simp
  · simp [hi]

/-- Past the check, no access of a call that changes a role depends on a lock. -/
theorem step1_relock {h : RHeap} {r : Nat} {b : Bool} {call : Call} {s : Spot} (hc : call.on r) (hs : s ≠ .gate) :
    step1 (relock h r b) call s = (step1 h call s).map fun p => (relock p.1 r b, p.2) := by
  have hg : (relock h r b).groups = h.groups := rfl
  cases call with
  | setLock => cases hc
  | fill => cases hc
  | grant r' g as =>
    cases hc
    cases s with
    | gate => exact absurd rfl hs
    | group =>
      simp only [step1, relock_get, if_true]
      cases h.roles[r]? with
      | none => rfl
      | some ro =>
        simp only [Option.map_some]
        cases ro.perms.get g <;> rfl
    | keep ga as' =>
      cases as' with
      | nil =>
        simp only [step1, relock_get, if_true]
        cases h.roles[r]? with
        | none => rfl
        | some ro =>
          simp only [Option.map_some]
          have := relock_set (h := h) (r := r) (b := b) (x := r) (ro := { ro with perms := ro.perms.set g ga })
          rw [if_pos rfl] at this
          simp only [this]
          rfl
      | cons a as' =>
        simp only [step1, hg]
        cases h.groups[ga]? <;> rfl
    | attr ga a as' =>
      simp only [step1, hg]
      cases h.groups[ga]? <;> rfl
    | _ => rfl
  | addGroup r' ga =>
    cases hc
    cases s with
    | gate => exact absurd rfl hs
    | gget =>
      simp only [step1, relock_get, if_true, hg]
      cases h.roles[r]? with
      | none => rfl
      | some ro => cases h.groups[ga]? <;> rfl
    | gset =>
      simp only [step1, relock_get, if_true, hg]
      cases h.roles[r]? with
      | none => rfl
      | some ro =>
        cases h.groups[ga]? with
        | none => rfl
        | some G =>
          simp only [Option.map_some]
          have := relock_set (h := h) (r := r) (b := b) (x := r) (ro := { ro with perms := ro.perms.set G.id ga })
          rw [if_pos rfl] at this
          simp only [this]
          rfl
    | _ => rfl
  | descend r' ds =>
    cases hc
    cases s with
    | gate => exact absurd rfl hs
    | dget ds' =>
      cases ds' with
      | nil => rfl
      | cons d ds' =>
        simp only [step1, relock_get, if_true]
        cases h.roles[d]? with
        | none => rfl
        | some dro =>
          cases h.roles[r]? with
          | none => rfl
          | some ro =>
            simp only [Option.map_some]
            by_cases hd : d = r <;> simp [hd]
    | dset d ds' =>
      simp only [step1, relock_get, if_true]
      cases h.roles[d]? with
      | none => rfl
      | some dro =>
        cases h.roles[r]? with
        | none => rfl
        | some ro =>
          simp only [Option.map_some]
          have hid : (if d = r then { dro with lock := b } else dro).id = dro.id := by split <;> rfl
          have := relock_set (h := h) (r := r) (b := b) (x := r) (ro := { ro with desc := ro.desc.set dro.id d })
          rw [if_pos rfl] at this
          simp only [hid, this]
          rfl
    | _ => rfl

theorem Acc.not_gate {h h' : RHeap} {call : Call} {s s' : Spot} (hc : call.on r) (e : step1 h call s = some (h', .at s')) :
    s' ≠ .gate := by
  rintro rfl
  cases call <;> cases s <;> simp only [step1, gate] at e <;> (try cases e) <;> (repeat' split at e) <;> simp_all

theorem steps_relock {call : Call} {h h' : RHeap} {s : Spot} {e : Option Err} {r : Nat} {b : Bool} (hc : call.on r)
    (w : Steps call h s h' e) (hs : s ≠ .gate) : Steps call (relock h r b) s (relock h' r b) e := by
  induction w with
  | last h1 => exact .last (by rw [step1_relock hc hs, h1]; rfl)
  | more h1 _ ih => exact .more (by rw [step1_relock hc hs, h1]; rfl) (ih (Acc.not_gate hc h1))

theorem relock_relock {h : RHeap} {r : Nat} {b b' : Bool} : relock (relock h r b) r b' = relock h r b' := by
  simp only [relock, modify_modify_eq]
  rfl

theorem relock_self {h : RHeap} {r : Nat} {ro : RoleObj} (hr : h.roles[r]? = some ro) : relock h r ro.lock = h := by
  have : h.roles.modify r (fun ro' => { ro' with lock := ro.lock }) = h.roles := by
    apply ext_getElem?
    intro i
    rw [getElem?_modify]
    by_cases hi : r = i
    · subst hi; simp [hr]
    · cases h.roles[i]? <;> simp [hi]
  simp [relock, this]

/-- C92. A goroutine that has just passed the check of the lock of role `r` can do all its call would
do to the unlocked role, whether the role has been locked meanwhile or not. -/
theorem C92_passed {c : Conf} {i r : Nat} {t : Thread} {call : Call} {s : Spot} {ro : RoleObj} {h' : RHeap} {e : Option Err}
    (ht : c.ts[i]? = some t) (hcur : t.cur = some (call, s)) (hs : call.entry = some (r, s)) (hr : c.heap.roles[r]? = some ro)
    (hseq : call.seq (relock c.heap r false) = .ok (e, h')) :
    ∃ n, c.run (replicate n i) = some { heap := relock h' r ro.lock
                                        ts := c.ts.set i { t with cur := none, out := t.out ++ [(call, e)] } } := by
  have hon : call.on r := on_entry.2 ⟨s, hs⟩
  have w := steps_call hseq
  have hrl : (relock c.heap r false).roles[r]? = some { ro with lock := false } := by rw [relock_get, hr]; simp
  have hg : step1 (relock c.heap r false) call call.first = some (relock c.heap r false, .at s) := by
    cases call <;> simp only [Call.entry] at hs <;> cases hs <;> simp [Call.first, step1, gate, hrl]
  have hsg : s ≠ .gate := Acc.not_gate hon hg
  have w' : Steps call (relock c.heap r false) s h' e := by
    cases w with
    | last h1 => rw [hg] at h1; cases h1
    | more h1 h2 => rw [hg] at h1; cases h1; exact h2
  have w'' := steps_relock (b := ro.lock) hon w' hsg
  rw [relock_relock, relock_self hr] at w''
  exact steps_run w'' c.ts i t ht hcur

/-- C92. One goroutine is about to change an unlocked role and another about to lock it: there is an
order of steps in which `Lock` returns while the role is as it was, and the whole change follows. -/
theorem C92_lost {h0 h' : RHeap} {calls : List (List Call)} {i j r : Nat} {call : Call} {l m : List Call} {ro : RoleObj}
    {e : Option Err} (hij : i ≠ j) (hi : calls[i]? = some (call :: l)) (hj : calls[j]? = some (.setLock r true :: m))
    (hc : call.on r) (hr : h0.roles[r]? = some ro) (hk : ro.lock = false) (hseq : call.seq h0 = .ok (e, h')) :
    ∃ is js c c', (Conf.start h0 calls).run is = some c ∧ (∃ t ∈ c.ts, (Call.setLock r true, none) ∈ t.out) ∧
      c.heap = relock h0 r true ∧ c.run js = some c' ∧ c'.heap = relock h' r true := by
  obtain ⟨s, hs⟩ := on_entry.1 hc
  have ti : (Conf.start h0 calls).ts[i]? = some { todo := call :: l } := by simp [Conf.start, hi]
  have tj : (Conf.start h0 calls).ts[j]? = some { todo := .setLock r true :: m } := by simp [Conf.start, hj]
  have li := (List.getElem?_eq_some_iff.1 ti).1
  have lj := (List.getElem?_eq_some_iff.1 tj).1
  have hg : step1 h0 call call.first = some (h0, .at s) := by
    cases call <;> simp only [Call.entry] at hs <;> cases hs <;> simp [Call.first, step1, gate, hr, hk]
  have e1 : (Conf.start h0 calls).run [i, i] =
      some { heap := h0, ts := (Conf.start h0 calls).ts.set i { todo := l, cur := some (call, s) } } := by
    have hh : (Conf.start h0 calls).heap = h0 := rfl
    simp [Conf.run, Conf.step, ti, getElem?_set_self li, hh, hg]
  generalize hts : (Conf.start h0 calls).ts.set i { todo := l, cur := some (call, s) } = ts at e1
  have ti1 : ts[i]? = some { todo := l, cur := some (call, s) } := by rw [← hts]; exact getElem?_set_self li
  have tj1 : ts[j]? = some { todo := .setLock r true :: m } := by rw [← hts, ← tj]; exact getElem?_set_ne hij
  have lj1 := (List.getElem?_eq_some_iff.1 tj1).1
  have hset : h0.roles.set r { ro with lock := true } = (relock h0 r true).roles := by
    apply ext_getElem?
    intro k
    rw [relock_get, getElem?_set]
    by_cases hkr : r = k
    · subst hkr
      rw [hr, if_pos rfl, if_pos (List.getElem?_eq_some_iff.1 hr).1]
      simp
    · cases h0.roles[k]? <;> simp [hkr, Ne.symm hkr]
  have e2 : (⟨h0, ts⟩ : Conf).run [j, j] =
      some { heap := relock h0 r true, ts := ts.set j { todo := m, out := [(.setLock r true, none)] } } := by
    simp [Conf.run, Conf.step, tj1, getElem?_set_self lj1, Call.first, step1, hr, hset]
    rfl
  have e12 := run_then (c := Conf.start h0 calls) [i, i] [j, j]
  rw [e1, Option.bind_some, e2] at e12
  obtain ⟨n, e3⟩ := C92_passed (c := ⟨relock h0 r true, ts.set j { todo := m, out := [(.setLock r true, none)] }⟩) (i := i)
    (r := r) (call := call) (s := s) (ro := { ro with lock := true }) (h' := h') (e := e)
    (by rw [getElem?_set_ne (Ne.symm hij)]; exact ti1) rfl hs (by rw [relock_get, hr]; simp)
    (by rw [relock_relock, ← hk, relock_self hr]; exact hseq)
  exact ⟨_, _, _, _, e12, ⟨_, mem_of_getElem? (getElem?_set_self lj1), mem_singleton.2 rfl⟩, rfl, e3, rfl⟩

/-- Three goroutines: one gives a role a descendant, one locks the role, one locks the descendant. -/
example : ∃ is js c c', (Conf.start { roles := [{ id := str "r" }, { id := str "s" }] }
    [[.descend 0 [1]], [.setLock 0 true], [.setLock 1 true]]).run is = some c ∧
      (∃ t ∈ c.ts, (Call.setLock 0 true, none) ∈ t.out) ∧
      c.heap = { roles := [{ id := str "r", lock := true }, { id := str "s" }] } ∧ c.run js = some c' ∧
      c'.heap = { roles := [{ id := str "r", desc := [(str "s", 1)], lock := true }, { id := str "s" }] } :=
  C92_lost (h' := { roles := [{ id := str "r", desc := [(str "s", 1)] }, { id := str "s" }] }) (e := none)
    (show 0 ≠ 1 by decide) rfl rfl rfl rfl rfl (by decide +kernel)

end GC
end Verif
