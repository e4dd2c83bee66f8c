import Verif.Props.RoleConc

/-!
C91: the hypothesis of `C91_granted_partial` cannot be dropped for two goroutines that grant in the
same new group. Whatever the roles and whatever the other goroutines do, some order of the steps
loses what one of the two granted.
-/

namespace Verif
namespace GC
open List

theorem run_then {c : Conf} (is js : List Nat) : c.run (is ++ js) = (c.run is).bind fun c' => c'.run js := by
  induction is generalizing c with
  | nil => rfl
  | cons i is ih =>
    simp only [cons_append, Conf.run]
    cases c.step i with
    | none => rfl
    | some c' => exact ih

/-- A goroutine that begins a grant on an unlocked role without the group, up to the new group. -/
theorem run_create {c : Conf} {i r : Nat} {g : Str} {as : List Attr} {t : Thread} {l : List Call} {ro : RoleObj}
    (ht : c.ts[i]? = some t) (hc : t.cur = none) (hl : t.todo = .grant r g as :: l) (hr : c.heap.roles[r]? = some ro)
    (hk : ro.lock = false) (hn : ro.perms.get g = none) :
    c.run [i, i, i] = some { heap := { c.heap with groups := c.heap.groups ++ [{ id := g }] }
                             ts := c.ts.set i { t with cur := some (.grant r g as, .keep c.heap.groups.length as), todo := l } } := by
  have hi := (List.getElem?_eq_some_iff.1 ht).1
  simp [Conf.run, Conf.step, ht, hc, hl, Call.first, getElem?_set_self hi, step1, gate, hr, hk, hn]

theorem keep_none {bs : List Attr} {x : Str} : ∀ {m : GoMap Str Attr}, m.get x = none → (∀ b ∈ bs, b.toStr ≠ x) →
    (RHeap.addAttrsKeep m bs).get x = none := by
  induction bs with
  | nil => intro m h _; exact h
  | cons b bs ih =>
    intro m h hb
    rw [RHeap.addAttrsKeep]
    split
    · exact ih h fun b' hb' => hb b' (mem_cons_of_mem _ hb')
    · refine ih ?_ fun b' hb' => hb b' (mem_cons_of_mem _ hb')
      rw [GoMap.get_set, if_neg (hb b mem_cons_self)]
      exact h

/-- C91. Two goroutines that grant in a group which an unlocked role does not have: there is an
order of steps after which the first grant has returned without error and the role has lost it. -/
theorem C91_lost {h0 : RHeap} {calls : List (List Call)} {i j r : Nat} {g : Str} {as bs : List Attr} {l m : List Call}
    {ro : RoleObj} {a : Attr} (hij : i ≠ j) (hi : calls[i]? = some (.grant r g as :: l))
    (hj : calls[j]? = some (.grant r g bs :: m)) (hr : h0.roles[r]? = some ro) (hk : ro.lock = false)
    (hn : ro.perms.get g = none) (hb : ∀ b ∈ bs, b.toStr ≠ a.toStr) :
    ∃ is c t, (Conf.start h0 calls).run is = some c ∧ c.ts[i]? = some t ∧ (Call.grant r g as, none) ∈ t.out ∧
      ¬ Holds c.heap r g a.toStr := by
  have ti : (Conf.start h0 calls).ts[i]? = some { todo := .grant r g as :: l } := by simp [Conf.start, hi]
  have tj : (Conf.start h0 calls).ts[j]? = some { todo := .grant r g bs :: m } := by simp [Conf.start, hj]
  have li := (List.getElem?_eq_some_iff.1 ti).1
  have lj := (List.getElem?_eq_some_iff.1 tj).1
  have lr := (List.getElem?_eq_some_iff.1 hr).1
  have e1 := run_create ti rfl rfl hr hk hn
  generalize hc1 : (⟨{ (Conf.start h0 calls).heap with groups := (Conf.start h0 calls).heap.groups ++ [{ id := g }] },
    _⟩ : Conf) = c1 at e1
  have tj1 : c1.ts[j]? = some { todo := .grant r g bs :: m } := by
    rw [← hc1, ← tj]; exact getElem?_set_ne hij
  have hr1 : c1.heap.roles[r]? = some ro := by rw [← hc1]; exact hr
  have e2 := run_create tj1 rfl rfl hr1 hk hn
  generalize hc2 : (⟨{ c1.heap with groups := c1.heap.groups ++ [{ id := g }] }, _⟩ : Conf) = c2 at e2
  have glen : c1.heap.groups.length = h0.groups.length + 1 := by rw [← hc1]; simp [Conf.start]
  have ti2 : c2.ts[i]? = some { todo := l, cur := some (.grant r g as, .keep h0.groups.length as) } := by
    rw [← hc2, getElem?_set_ne (fun h => hij h.symm), ← hc1]; exact getElem?_set_self li
  have tj2 : c2.ts[j]? = some { todo := m, cur := some (.grant r g bs, .keep (h0.groups.length + 1) bs) } := by
    rw [← glen, ← hc2]
    exact getElem?_set_self (List.getElem?_eq_some_iff.1 tj1).1
  have hr2 : c2.heap.roles[r]? = some ro := by rw [← hc2]; exact hr1
  have gi : c2.heap.groups[h0.groups.length]? = some { id := g } := by
    rw [← hc2, ← hc1]; simp [Conf.start]
  have gj : c2.heap.groups[h0.groups.length + 1]? = some { id := g } := by
    rw [← hc2, ← hc1]; simp [Conf.start]
  obtain ⟨n, e3⟩ := steps_run (steps_keep (as0 := as) (g := g) as c2.heap _ hr2 gi) c2.ts i _ ti2 rfl
  have hr3 : (c2.heap.roles.set r { ro with perms := ro.perms.set g h0.groups.length })[r]? =
      some { ro with perms := ro.perms.set g h0.groups.length } :=
    getElem?_set_self (List.getElem?_eq_some_iff.1 hr2).1
  obtain ⟨n', e4⟩ := steps_run (steps_keep (as0 := bs) (g := g) bs
    { roles := c2.heap.roles.set r { ro with perms := ro.perms.set g h0.groups.length }
      groups := c2.heap.groups.set h0.groups.length
        { id := g, perms := RHeap.addAttrsKeep [] as } } { id := g } hr3
    (by rw [← gj]; exact getElem?_set_ne (by omega))) (c2.ts.set i { todo := l, cur := none, out := [] ++ [(.grant r g as, none)] }) j _
    (by rw [← tj2]; exact getElem?_set_ne hij) rfl
  have e5 := run_then (c := Conf.start h0 calls) [i, i, i] ([j, j, j] ++ (replicate n i ++ replicate n' j))
  rw [e1, Option.bind_some, run_then [j, j, j], e2, Option.bind_some, run_then (replicate n i), e3, Option.bind_some, e4] at e5
  refine ⟨_, _, { todo := l, cur := none, out := [] ++ [(.grant r g as, none)] }, e5, ?_, ?_, ?_⟩
  · rw [getElem?_set_ne (fun h => hij h.symm)]
    exact getElem?_set_self (List.getElem?_eq_some_iff.1 ti2).1
  · exact mem_append_right _ (mem_singleton.2 rfl)
  · rintro ⟨ro', ga, G, h1, h2, h3, h4⟩
    rw [getElem?_set_self (List.getElem?_eq_some_iff.1 hr3).1] at h1
    cases h1
    rw [GoMap.get_set, if_pos rfl] at h2
    cases h2
    rw [getElem?_set_self (by rw [length_set]; exact (List.getElem?_eq_some_iff.1 gj).1)] at h3
    cases h3
    rw [keep_none rfl hb] at h4
    cases h4

/-- Three goroutines: the first two grant in the new group "g", the third locks another role. -/
example : ∃ is c t, (Conf.start { roles := [{ id := str "r" }, { id := str "s" }] }
    [[.grant 0 (str "g") [⟨str "/a", str "GET"⟩, ⟨str "/c", str "GET"⟩], .setLock 0 true],
     [.grant 0 (str "g") [⟨str "/b", str "GET"⟩]], [.setLock 1 true]]).run is = some c ∧ c.ts[0]? = some t ∧
    (Call.grant 0 (str "g") [⟨str "/a", str "GET"⟩, ⟨str "/c", str "GET"⟩], none) ∈ t.out ∧
      ¬ Holds c.heap 0 (str "g") (str "/a GET") :=
  C91_lost (a := ⟨str "/a", str "GET"⟩) (show 0 ≠ 1 by decide) rfl rfl rfl rfl rfl (by decide +kernel)

end GC
end Verif
