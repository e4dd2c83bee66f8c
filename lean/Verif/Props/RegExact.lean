import Verif.Props.RegConc

/-!
# When registrations disagree (C90)
-/

namespace Verif
namespace RC

/-- The object a goroutine gives in its first registration of an identifier. -/
def firstAdd (id : Str) : List Call → Option Nat
  | [] => none
  | .add id' o :: l => if id' = id then some o else firstAdd id l
  | .find _ :: l => firstAdd id l

/-- Two goroutines register an identifier that is not registered yet, and their first registrations of it give
different objects. -/
def Conflict (reg : GoMap Str Nat) (calls : List (List Call)) : Prop :=
  ∃ (i j : Nat) (l m : List Call) (id : Str) (a b : Nat), i ≠ j ∧ calls[i]? = some l ∧ calls[j]? = some m ∧
    reg.get id = none ∧ firstAdd id l = some a ∧ firstAdd id m = some b ∧ a ≠ b

theorem firstAdd_mid {id : Str} {o : Nat} {r : List Call} : ∀ {l : List Call}, (∀ x, Call.add id x ∉ l) →
    firstAdd id (l ++ .add id o :: r) = some o
  | [], _ => by simp [firstAdd]
  | .find _ :: l, h => firstAdd_mid (l := l) fun x hx => h x (List.mem_cons_of_mem _ hx)
  | .add id' o' :: l, h => by
    have : id' ≠ id := by rintro rfl; exact h o' List.mem_cons_self
    simp only [List.cons_append, firstAdd, if_neg this]
    exact firstAdd_mid fun x hx => h x (List.mem_cons_of_mem _ hx)

/-- The calls before the first registration. -/
theorem firstAdd_split {id : Str} {o : Nat} : ∀ {l : List Call}, firstAdd id l = some o →
    ∃ p r, l = p ++ .add id o :: r ∧ ∀ x, Call.add id x ∉ p
  | .find i :: l, h => by
    obtain ⟨p, r, rfl, hp⟩ := firstAdd_split (l := l) h
    exact ⟨.find i :: p, r, rfl, fun x hx => by
      rcases List.mem_cons.1 hx with hx | hx
      · cases hx
      · exact hp x hx⟩
  | .add id' o' :: l, h => by
    unfold firstAdd at h
    split at h
    · next e => subst e; cases h; exact ⟨[], l, rfl, fun _ hx => by cases hx⟩
    · next e =>
      obtain ⟨p, r, rfl, hp⟩ := firstAdd_split (l := l) h
      refine ⟨.add id' o' :: p, r, rfl, fun x hx => ?_⟩
      rcases List.mem_cons.1 hx with hx | hx
      · cases hx; exact e rfl
      · exact hp x hx

/-- Where an object under an identifier may come from. -/
def From (reg0 : GoMap Str Nat) (calls : List (List Call)) (id : Str) (w : Nat) : Prop :=
  reg0.get id = some w ∨ (reg0.get id = none ∧ ∃ (j : Nat) (l : List Call), calls[j]? = some l ∧ firstAdd id l = some w)

structure First (reg0 : GoMap Str Nat) (calls : List (List Call)) (c : Conf) : Prop where
  inv : Inv reg0 c
  prog : ∀ (j : Nat) (t : Thread), c.ts[j]? = some t → calls[j]? = some (t.begun ++ t.todo)
  set : ∀ (j : Nat) (t : Thread), c.ts[j]? = some t → ∀ id o, t.cur = some (.add id o, .set) →
    firstAdd id (t.begun ++ t.todo) = some o
  reg : ∀ id w, c.reg.get id = some w → From reg0 calls id w
  out : ∀ t ∈ c.ts, ∀ id w, ((∃ o, (Call.add id o, some w) ∈ t.out) ∨ (Call.find id, some w) ∈ t.out) →
    From reg0 calls id w

theorem First.step {reg0 : GoMap Str Nat} {calls : List (List Call)} {c c' : Conf} {i : Nat} (f : First reg0 calls c)
    (e : c.step i = some c') : First reg0 calls c' := by
  obtain ⟨t, t', ht, ht', hts, ho, hk⟩ := step_cases e
  have hm : t ∈ c.ts := List.mem_of_getElem? ht
  have hin := inv_step f.inv e
  have prog' : ∀ (j : Nat) (t : Thread), c'.ts[j]? = some t → calls[j]? = some (t.begun ++ t.todo) := by
    intro j u hu
    by_cases hji : j = i
    · subst hji
      rw [ht'] at hu; cases hu
      rw [f.prog j t ht]
      rcases hk with ⟨call, rest, h1, h2, _, rfl⟩ | ⟨_, _, h1, _, _, rfl⟩ | ⟨_, _, _, h1, _, _, rfl⟩ |
        ⟨_, _, h1, _, rfl⟩ | ⟨_, _, h1, _, rfl⟩
      · simp [Thread.begun, h1, h2]
      all_goals simp [Thread.begun, h1]
    · exact f.prog j u (by rw [← ho j hji]; exact hu)
  have other : (∀ id o, t'.cur = some (.add id o, .set) → firstAdd id (t'.begun ++ t'.todo) = some o) →
      ∀ (j : Nat) (t : Thread), c'.ts[j]? = some t → ∀ id o, t.cur = some (.add id o, .set) →
        firstAdd id (t.begun ++ t.todo) = some o := by
    intro h j u hu
    by_cases hji : j = i
    · subst hji
      rw [ht'] at hu; cases hu
      exact h
    · exact f.set j u (by rw [← ho j hji]; exact hu)
  have keep : (∀ id w, ((∃ o, (Call.add id o, some w) ∈ t'.out) ∨ (Call.find id, some w) ∈ t'.out) →
      From reg0 calls id w) → ∀ t ∈ c'.ts, ∀ id w,
        ((∃ o, (Call.add id o, some w) ∈ t.out) ∨ (Call.find id, some w) ∈ t.out) → From reg0 calls id w := by
    intro h u hu
    rcases mem_ts hts hu with rfl | hu
    · exact h
    · exact f.out u hu
  rcases hk with ⟨call, rest, h1, h2, hr, rfl⟩ | ⟨id, obj, h1, h2, hr, rfl⟩ | ⟨id, obj, old, h1, h2, hr, rfl⟩ |
      ⟨id, obj, h1, hr, rfl⟩ | ⟨id, s, h1, hr, rfl⟩
  · exact ⟨hin, prog', other (fun id o h => by simp at h), by rw [hr]; exact f.reg, keep (f.out t hm)⟩
  · refine ⟨hin, prog', other ?_, by rw [hr]; exact f.reg, keep (f.out t hm)⟩
    intro id' o h
    cases h
    have hno : ∀ x, Call.add id x ∉ t.out.map (·.1) := by
      intro x hx
      obtain ⟨⟨call, res⟩, hx1, hx2⟩ := List.mem_map.1 hx
      cases hx2
      obtain ⟨_, _, _, h3⟩ := f.inv.out t hm _ hx1
      rw [h2] at h3; cases h3
    simp only [Thread.begun, Option.toList_some, List.map_cons, List.map_nil, List.append_assoc, List.singleton_append]
    exact firstAdd_mid hno
  · refine ⟨hin, prog', other (fun id o h => by simp at h), by rw [hr]; exact f.reg, keep ?_⟩
    rintro id' w (⟨o, h⟩ | h)
    · rcases List.mem_append.1 h with h | h
      · exact f.out t hm id' w (Or.inl ⟨o, h⟩)
      · rw [List.mem_singleton] at h
        cases h
        exact f.reg id old h2
    · rcases List.mem_append.1 h with h | h
      · exact f.out t hm id' w (Or.inr h)
      · rw [List.mem_singleton] at h; cases h
  · have hf : From reg0 calls id obj :=
      Or.inr ⟨f.inv.set t hm id obj h1, i, _, f.prog i t ht, f.set i t ht id obj h1⟩
    refine ⟨hin, prog', other (fun id o h => by simp at h), ?_, keep ?_⟩
    · intro id' w h
      rw [hr, GoMap.get_set] at h
      split at h
      · next hid => subst hid; cases h; exact hf
      · exact f.reg id' w h
    · rintro id' w (⟨o, h⟩ | h)
      · rcases List.mem_append.1 h with h | h
        · exact f.out t hm id' w (Or.inl ⟨o, h⟩)
        · rw [List.mem_singleton] at h
          cases h
          exact hf
      · rcases List.mem_append.1 h with h | h
        · exact f.out t hm id' w (Or.inr h)
        · rw [List.mem_singleton] at h; cases h
  · refine ⟨hin, prog', other (fun id o h => by simp at h), by rw [hr]; exact f.reg, keep ?_⟩
    rintro id' w (⟨o, h⟩ | h)
    · rcases List.mem_append.1 h with h | h
      · exact f.out t hm id' w (Or.inl ⟨o, h⟩)
      · rw [List.mem_singleton] at h; cases h
    · rcases List.mem_append.1 h with h | h
      · exact f.out t hm id' w (Or.inr h)
      · rw [List.mem_singleton] at h
        injection h with e1 e2
        cases e1
        exact f.reg id w e2.symm

theorem First.start (reg0 : GoMap Str Nat) (calls : List (List Call)) : First reg0 calls (.start reg0 calls) := by
  refine ⟨inv_start reg0 calls, prog_run (is := []) rfl, ?_, fun id w h => Or.inl h, ?_⟩
  · intro j t ht id o h
    simp only [Conf.start, List.getElem?_map, Option.map_eq_some_iff] at ht
    obtain ⟨l, _, rfl⟩ := ht
    cases h
  · intro t ht id w h
    simp only [Conf.start, List.mem_map] at ht
    obtain ⟨l, _, rfl⟩ := ht
    rcases h with ⟨_, h⟩ | h <;> cases h

theorem From.eq {reg0 : GoMap Str Nat} {calls : List (List Call)} (hn : ¬ Conflict reg0 calls) {id : Str} {w v : Nat}
    (hw : From reg0 calls id w) (hv : From reg0 calls id v) : w = v := by
  rcases hw with hw | ⟨h0, i, l, hi, hw⟩ <;> rcases hv with hv | ⟨h0', j, m, hj, hv⟩
  · rw [hw] at hv; cases hv; rfl
  · rw [hw] at h0'; cases h0'
  · rw [hv] at h0; cases h0
  · refine Classical.byContradiction fun hne => hn ⟨i, j, l, m, id, w, v, ?_, hi, hj, h0, hw, hv, hne⟩
    rintro rfl
    rw [hi] at hj; cases hj
    rw [hw] at hv; cases hv
    exact hne rfl

/-- Without such a conflict everybody gets, for ever, the object that is registered. -/
theorem C90_agree_exact {reg0 : GoMap Str Nat} {calls : List (List Call)} (hn : ¬ Conflict reg0 calls)
    {is : List Nat} {c : Conf} (e : (Conf.start reg0 calls).run is = some c) {t : Thread} (ht : t ∈ c.ts) {id : Str} :
    (∀ o res, (Call.add id o, res) ∈ t.out → res.isSome ∧ c.reg.get id = res) ∧
      ∀ w, (Call.find id, some w) ∈ t.out → ∀ v, c.reg.get id = some v → v = w := by
  have f := run_inv (P := First reg0 calls) (fun _ _ _ h e => h.step e) is (First.start reg0 calls) e
  refine ⟨fun o res h => ?_, fun w h v hv => From.eq hn (f.reg id v hv) (f.out t ht id w (Or.inr h))⟩
  obtain ⟨w, rfl, _, h3⟩ := f.inv.out t ht _ h
  obtain ⟨v, hv⟩ := Option.isSome_iff_exists.1 h3
  refine ⟨rfl, ?_⟩
  rw [hv, From.eq hn (f.reg id v hv) (f.out t ht id w (Or.inl ⟨o, h⟩))]

theorem run_append {c : Conf} : ∀ (is js : List Nat), c.run (is ++ js) = (c.run is).bind fun c' => c'.run js := by
  intro is
  induction is generalizing c with
  | nil => intro js; rfl
  | cons i is ih =>
    intro js
    simp only [List.cons_append, Conf.run]
    cases c.step i with
    | none => rfl
    | some c' => exact ih js

/-- A goroutine makes calls that do not register `id`: nothing happens to `id`, and the others stand still. -/
theorem run_prefix {id : Str} {i : Nat} {rest : List Call} : ∀ (p : List Call) (c : Conf) (t : Thread), c.ts[i]? = some t →
    t.cur = none → t.todo = p ++ rest → (∀ x, Call.add id x ∉ p) →
    ∃ is c' t', c.run is = some c' ∧ c'.ts[i]? = some t' ∧ t'.cur = none ∧ t'.todo = rest ∧
      c'.reg.get id = c.reg.get id ∧ ∀ j, j ≠ i → c'.ts[j]? = c.ts[j]?
  | [], c, t, ht, h1, h2, _ => ⟨[], c, t, rfl, ht, h1, h2, rfl, fun _ _ => rfl⟩
  | call :: p, c, t, ht, h1, h2, hp => by
    obtain ⟨n, hn⟩ := C90_alone c.reg call (ts := c.ts) ht h1 (rest := p ++ rest) h2
    have hl := (List.getElem?_eq_some_iff.1 ht).1
    obtain ⟨is, c', t', e1, e2, e3, e4, e5, e6⟩ := run_prefix (id := id) (i := i) (rest := rest) p
      { reg := (call.seq c.reg).1,
        ts := c.ts.set i { cur := none, todo := p ++ rest, out := t.out ++ [(call, (call.seq c.reg).2)] } }
      _ (List.getElem?_set_self hl) rfl rfl (fun x hx => hp x (List.mem_cons_of_mem _ hx))
    refine ⟨List.replicate n i ++ is, c', t', ?_, e2, e3, e4, ?_, fun j hj => ?_⟩
    · rw [run_append, hn]; exact e1
    · rw [e5]
      cases call with
      | find id' => rfl
      | add id' o =>
        have hne : id ≠ id' := by rintro rfl; exact hp o List.mem_cons_self
        simp only [Call.seq]
        split
        · rfl
        · rw [GoMap.get_set, if_neg (fun h => hne h.symm)]
    · rw [e6 j hj, List.getElem?_set_ne (fun h => hj h.symm)]

/-- A goroutine runs alone up to the `Set` of its first registration of `id`. -/
theorem run_to_set {id : Str} {i : Nat} {a : Nat} {c : Conf} {t : Thread} (ht : c.ts[i]? = some t) (h1 : t.cur = none)
    (h2 : firstAdd id t.todo = some a) (h0 : c.reg.get id = none) :
    ∃ is c' t', c.run is = some c' ∧ c'.ts[i]? = some t' ∧ t'.cur = some (.add id a, .set) ∧
      c'.reg.get id = none ∧ ∀ j, j ≠ i → c'.ts[j]? = c.ts[j]? := by
  obtain ⟨p, r, hp, hno⟩ := firstAdd_split h2
  obtain ⟨is, c', t', e1, e2, e3, e4, e5, e6⟩ := run_prefix p c t ht h1 hp hno
  have hl := (List.getElem?_eq_some_iff.1 e2).1
  have hg : c'.reg.get id = none := by rw [e5, h0]
  refine ⟨is ++ [i, i], { c' with ts := c'.ts.set i { t' with cur := some (.add id a, .set), todo := r } },
    { t' with cur := some (.add id a, .set), todo := r }, ?_, List.getElem?_set_self hl, rfl, hg, fun j hj => ?_⟩
  · rw [run_append, e1]
    simp only [Option.bind_some, Conf.run, Conf.step, e2, e3, e4, List.getElem?_set_self hl, step1, hg, List.set_set]
  · rw [← e6 j hj]; exact List.getElem?_set_ne (fun h => hj h.symm)

theorem run_set {id : Str} {i a : Nat} {c : Conf} {t : Thread} (ht : c.ts[i]? = some t)
    (h : t.cur = some (.add id a, .set)) : c.run [i] =
      some { reg := c.reg.set id a, ts := c.ts.set i { t with cur := none, out := t.out ++ [(.add id a, some a)] } } := by
  simp only [Conf.run, Conf.step, ht, h, step1]
  rfl

/-- C90. Some callers can end up with an object that is not the registered one exactly if there is a conflict. -/
theorem C90_exact {reg0 : GoMap Str Nat} {calls : List (List Call)} :
    (∃ is c, (Conf.start reg0 calls).run is = some c ∧ ∃ t ∈ c.ts, ∃ id o res, (Call.add id o, res) ∈ t.out ∧
      c.reg.get id ≠ res) ↔ Conflict reg0 calls := by
  constructor
  · rintro ⟨is, c, e, t, ht, id, o, res, h1, h2⟩
    exact Classical.byContradiction fun hn => h2 ((C90_agree_exact hn e ht).1 o res h1).2
  · rintro ⟨i, j, l, m, id, a, b, hij, hl, hm, h0, ha, hb, hab⟩
    obtain ⟨is, c1, t1, a1, a2, a3, a4, a5⟩ := run_to_set (c := Conf.start reg0 calls) (i := i) (t := { todo := l })
      (by simp [Conf.start, hl]) rfl ha h0
    obtain ⟨js, c2, t2, b1, b2, b3, b4, b5⟩ := run_to_set (c := c1) (i := j) (t := { todo := m })
      (by rw [a5 j (fun h => hij h.symm)]; simp [Conf.start, hm]) rfl hb a4
    have b6 := b5 i hij
    rw [a2] at b6
    have hli := (List.getElem?_eq_some_iff.1 b6).1
    have e1 := run_set b6 a3
    have e2 := run_set (c := { reg := c2.reg.set id a, ts := c2.ts.set i { t1 with cur := none, out := t1.out ++ [(.add id a, some a)] } })
      (i := j) (t := t2) (by rw [← b2]; exact List.getElem?_set_ne hij) b3
    have e3 := run_append (c := Conf.start reg0 calls) is (js ++ ([i] ++ [j]))
    rw [a1, Option.bind_some, run_append js, b1, Option.bind_some, run_append [i], e1, Option.bind_some, e2] at e3
    refine ⟨is ++ (js ++ ([i] ++ [j])), _, e3, { t1 with cur := none, out := t1.out ++ [(.add id a, some a)] }, ?_, id, a,
      some a, ?_, ?_⟩
    · refine List.mem_of_getElem? (i := i) ?_
      rw [List.getElem?_set_ne (fun h => hij h.symm)]
      exact List.getElem?_set_self hli
    · exact List.mem_append_right _ (List.mem_singleton.2 rfl)
    · show (GoMap.set (GoMap.set c2.reg id a) id b).get id ≠ some a
      rw [GoMap.get_set, if_pos rfl]
      intro h
      exact hab (Option.some.inj h).symm

/-- A conflict: the first goroutine looks up "r" before registering it. -/
example : Conflict [(str "q", 9)] [[.find (str "r"), .add (str "r") 1], [.add (str "q") 3, .add (str "r") 2]] :=
  ⟨0, 1, _, _, str "r", 1, 2, by decide, rfl, rfl, by decide +kernel, by decide +kernel, by decide +kernel, by decide⟩

/-- No conflict, though two goroutines register the same new identifier: they give the same object. -/
example : ¬ Conflict [] [[.add (str "r") 1], [.add (str "r") 1, .add (str "r") 2]] := by
  rintro ⟨i, j, l, m, id, a, b, hij, hl, hm, _, ha, hb, hab⟩
  have key : ∀ (i : Nat) (l : List Call), [[Call.add (str "r") 1], [.add (str "r") 1, .add (str "r") 2]][i]? = some l →
      ∀ a, firstAdd id l = some a → a = 1 := by
    intro i l hl a ha
    match i with
    | 0 =>
      cases hl
      simp only [firstAdd] at ha
      split at ha <;> cases ha
      rfl
    | 1 =>
      cases hl
      simp only [firstAdd] at ha
      split at ha <;> cases ha
      rfl
    | i + 2 => simp at hl
  rw [key i l hl a ha, key j m hm b hb] at hab
  exact hab rfl

end RC
end Verif
