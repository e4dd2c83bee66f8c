import Mathlib.Data.List.Basic
import Verif.Model.RegConc

/-!
# Registering objects from several goroutines (C90)
-/

namespace Verif
namespace RC

/-- The calls a goroutine has begun. -/
def Thread.begun (t : Thread) : List Call := t.out.map (·.1) ++ t.cur.toList.map (·.1)

/-- Some goroutine has begun to register `obj` under `id`. -/
def Conf.Given (c : Conf) (id : Str) (obj : Nat) : Prop := ∃ t ∈ c.ts, Call.add id obj ∈ t.begun

/-- No two goroutines register an identifier that is not registered yet. -/
def Apart (reg : GoMap Str Nat) (calls : List (List Call)) : Prop :=
  ∀ (i j : Nat) (l m : List Call), i ≠ j → calls[i]? = some l → calls[j]? = some m →
    ∀ id a b, Call.add id a ∈ l → Call.add id b ∈ m → (reg.get id).isSome

/-- The kinds of steps. -/
theorem step_cases {c c' : Conf} {i : Nat} (e : c.step i = some c') :
    ∃ t t', c.ts[i]? = some t ∧ c'.ts[i]? = some t' ∧ c'.ts = c.ts.set i t' ∧
      (∀ j, j ≠ i → c'.ts[j]? = c.ts[j]?) ∧
      ((∃ call rest, t.cur = none ∧ t.todo = call :: rest ∧ c'.reg = c.reg ∧
          t' = { t with cur := some (call, .get), todo := rest }) ∨
       (∃ id obj, t.cur = some (.add id obj, .get) ∧ c.reg.get id = none ∧ c'.reg = c.reg ∧
          t' = { t with cur := some (.add id obj, .set) }) ∨
       (∃ id obj old, t.cur = some (.add id obj, .get) ∧ c.reg.get id = some old ∧ c'.reg = c.reg ∧
          t' = { t with cur := none, out := t.out ++ [(.add id obj, some old)] }) ∨
       (∃ id obj, t.cur = some (.add id obj, .set) ∧ c'.reg = c.reg.set id obj ∧
          t' = { t with cur := none, out := t.out ++ [(.add id obj, some obj)] }) ∨
       (∃ id s, t.cur = some (.find id, s) ∧ c'.reg = c.reg ∧
          t' = { t with cur := none, out := t.out ++ [(.find id, c.reg.get id)] })) := by
  unfold Conf.step at e
  split at e
  · cases e
  · rename_i t ht
    have hl := (List.getElem?_eq_some_iff.1 ht).1
    have key : ∀ t' : Thread, (c.ts.set i t')[i]? = some t' ∧ ∀ j, j ≠ i → (c.ts.set i t')[j]? = c.ts[j]? :=
      fun t' => ⟨List.getElem?_set_self hl, fun j hj => List.getElem?_set_ne (fun h => hj h.symm)⟩
    refine ⟨t, ?_⟩
    split at e
    · rename_i hc
      split at e
      · cases e
      · rename_i call rest hr
        cases e
        exact ⟨_, ht, (key _).1, rfl, (key _).2, Or.inl ⟨call, rest, hc, hr, rfl, rfl⟩⟩
    · rename_i call s hc
      cases call with
      | find id =>
        cases e
        exact ⟨_, ht, (key _).1, rfl, (key _).2, Or.inr (Or.inr (Or.inr (Or.inr ⟨id, s, hc, rfl, rfl⟩)))⟩
      | add id obj =>
        cases s with
        | get =>
          simp only [step1] at e
          cases hg : c.reg.get id with
          | none =>
            rw [hg] at e
            cases e
            exact ⟨_, ht, (key _).1, rfl, (key _).2, Or.inr (Or.inl ⟨id, obj, hc, hg, rfl, rfl⟩)⟩
          | some old =>
            rw [hg] at e
            cases e
            exact ⟨_, ht, (key _).1, rfl, (key _).2, Or.inr (Or.inr (Or.inl ⟨id, obj, old, hc, hg, rfl, rfl⟩))⟩
        | set =>
          cases e
          exact ⟨_, ht, (key _).1, rfl, (key _).2, Or.inr (Or.inr (Or.inr (Or.inl ⟨id, obj, hc, rfl, rfl⟩)))⟩

theorem run_inv {P : Conf → Prop} (hP : ∀ c c' i, P c → c.step i = some c' → P c') :
    ∀ (is : List Nat) {c c' : Conf}, P c → c.run is = some c' → P c' := by
  intro is
  induction is with
  | nil => intro c c' h e; cases e; exact h
  | cons i is ih =>
    intro c c' h e
    simp only [Conf.run, Option.bind_eq_some_iff] at e
    obtain ⟨c1, h1, h2⟩ := e
    exact ih (hP c c1 i h h1) h2

theorem mem_ts {c c' : Conf} {i : Nat} {t' u : Thread} (h : c'.ts = c.ts.set i t') (hu : u ∈ c'.ts) :
    u = t' ∨ u ∈ c.ts := by
  rw [h] at hu
  rcases List.mem_or_eq_of_mem_set hu with h | h
  · exact Or.inr h
  · exact Or.inl h

theorem given_mono {c c' : Conf} {i : Nat} (e : c.step i = some c') {id : Str} {obj : Nat}
    (h : c.Given id obj) : c'.Given id obj := by
  obtain ⟨t, t', ht, ht', _, ho, hk⟩ := step_cases e
  obtain ⟨u, hu, hx⟩ := h
  obtain ⟨j, hj⟩ := List.getElem?_of_mem hu
  by_cases hji : j = i
  · subst hji
    have hut : u = t := Option.some.inj (hj.symm.trans ht)
    subst hut
    refine ⟨t', List.mem_of_getElem? ht', ?_⟩
    rcases hk with ⟨call, rest, h1, _, _, rfl⟩ | ⟨_, _, h1, _, _, rfl⟩ | ⟨_, _, _, h1, _, _, rfl⟩ |
      ⟨_, _, h1, _, rfl⟩ | ⟨_, _, h1, _, rfl⟩
    · simp only [Thread.begun, h1, Option.toList_none, List.map_nil, List.append_nil] at hx
      exact List.mem_append_left _ hx
    all_goals simpa [Thread.begun, h1] using hx
  · exact ⟨u, List.mem_of_getElem? (i := j) (by rw [ho j hji]; exact hj), hx⟩

/-- What is known of the object under an identifier. -/
def Known (reg0 : GoMap Str Nat) (c : Conf) (id : Str) (obj : Nat) : Prop :=
  reg0.get id = some obj ∨ (reg0.get id = none ∧ c.Given id obj)

structure Inv (reg0 : GoMap Str Nat) (c : Conf) : Prop where
  reg : ∀ id obj, c.reg.get id = some obj → Known reg0 c id obj
  keep : ∀ id obj, reg0.get id = some obj → c.reg.get id = some obj
  set : ∀ t ∈ c.ts, ∀ id obj, t.cur = some (.add id obj, .set) → reg0.get id = none
  out : ∀ t ∈ c.ts, ∀ e ∈ t.out, match e with
    | (.add id _, res) => ∃ w, res = some w ∧ Known reg0 c id w ∧ (c.reg.get id).isSome
    | (.find id, res) => (reg0.get id).isSome ≤ res.isSome ∧ ∀ w, res = some w → Known reg0 c id w

theorem Known.mono {reg0 : GoMap Str Nat} {c c' : Conf} {i : Nat} (e : c.step i = some c') {id : Str}
    {obj : Nat} (h : Known reg0 c id obj) : Known reg0 c' id obj :=
  h.imp (fun h => h) (fun h => ⟨h.1, given_mono e h.2⟩)

theorem inv_step {reg0 : GoMap Str Nat} {c c' : Conf} {i : Nat} (v : Inv reg0 c) (e : c.step i = some c') :
    Inv reg0 c' := by
  obtain ⟨t, t', ht, ht', hts, ho, hk⟩ := step_cases e
  have hm : t ∈ c.ts := List.mem_of_getElem? ht
  have hm' : t' ∈ c'.ts := List.mem_of_getElem? ht'
  have hout : (∀ id, (c.reg.get id).isSome → (c'.reg.get id).isSome) → ∀ en : Call × Option Nat,
      (match en with
        | (.add id _, res) => ∃ w, res = some w ∧ Known reg0 c id w ∧ (c.reg.get id).isSome
        | (.find id, res) => (reg0.get id).isSome ≤ res.isSome ∧ ∀ w, res = some w → Known reg0 c id w) →
      (match en with
        | (.add id _, res) => ∃ w, res = some w ∧ Known reg0 c' id w ∧ (c'.reg.get id).isSome
        | (.find id, res) => (reg0.get id).isSome ≤ res.isSome ∧ ∀ w, res = some w → Known reg0 c' id w) := by
    rintro hmono ⟨call, res⟩ h
    cases call with
    | add id o =>
      obtain ⟨w, h1, h2, h3⟩ := h
      exact ⟨w, h1, h2.mono e, hmono id h3⟩
    | find id => exact ⟨h.1, fun w hw => (h.2 w hw).mono e⟩
  rcases hk with ⟨call, rest, h1, h2, hr, rfl⟩ | ⟨id, obj, h1, h2, hr, rfl⟩ | ⟨id, obj, old, h1, h2, hr, rfl⟩ |
      ⟨id, obj, h1, hr, rfl⟩ | ⟨id, s, h1, hr, rfl⟩
  · have hmono : ∀ id, (c.reg.get id).isSome → (c'.reg.get id).isSome := by rw [hr]; exact fun _ h => h
    refine ⟨by rw [hr]; exact fun id o h => (v.reg id o h).mono e, by rw [hr]; exact v.keep, ?_, ?_⟩
    · intro u hu id o hc
      rcases mem_ts hts hu with rfl | hu
      · simp at hc
      · exact v.set u hu id o hc
    · intro u hu en hen
      refine hout hmono en ?_
      rcases mem_ts hts hu with rfl | hu
      · exact v.out t hm en hen
      · exact v.out u hu en hen
  · have hmono : ∀ id, (c.reg.get id).isSome → (c'.reg.get id).isSome := by rw [hr]; exact fun _ h => h
    refine ⟨by rw [hr]; exact fun id o h => (v.reg id o h).mono e, by rw [hr]; exact v.keep, ?_, ?_⟩
    · intro u hu id' o hc
      rcases mem_ts hts hu with rfl | hu
      · cases hc
        cases hg : reg0.get id with
        | none => rfl
        | some w => rw [v.keep id w hg] at h2; cases h2
      · exact v.set u hu id' o hc
    · intro u hu en hen
      refine hout hmono en ?_
      rcases mem_ts hts hu with rfl | hu
      · exact v.out t hm en hen
      · exact v.out u hu en hen
  · have hmono : ∀ id, (c.reg.get id).isSome → (c'.reg.get id).isSome := by rw [hr]; exact fun _ h => h
    refine ⟨by rw [hr]; exact fun id o h => (v.reg id o h).mono e, by rw [hr]; exact v.keep, ?_, ?_⟩
    · intro u hu id' o hc
      rcases mem_ts hts hu with rfl | hu
      · cases hc
      · exact v.set u hu id' o hc
    · intro u hu en hen
      refine hout hmono en ?_
      rcases mem_ts hts hu with rfl | hu
      · rcases List.mem_append.1 hen with hen | hen
        · exact v.out t hm en hen
        · rw [List.mem_singleton] at hen
          subst hen
          exact ⟨old, rfl, v.reg id old h2, by rw [h2]; rfl⟩
      · exact v.out u hu en hen
  · have hmono : ∀ id, (c.reg.get id).isSome → (c'.reg.get id).isSome := by
      intro id' h
      rw [hr, GoMap.get_set]
      split
      · rfl
      · exact h
    have h0 := v.set t hm id obj h1
    have hgiven : c'.Given id obj := given_mono e ⟨t, hm, by simp [Thread.begun, h1]⟩
    refine ⟨?_, ?_, ?_, ?_⟩
    · intro id' o h
      rw [hr, GoMap.get_set] at h
      split at h
      · rename_i hid
        subst hid
        cases h
        exact Or.inr ⟨h0, hgiven⟩
      · exact (v.reg id' o h).mono e
    · intro id' o h
      rw [hr, GoMap.get_set, if_neg]
      · exact v.keep id' o h
      · rintro rfl
        rw [h0] at h; cases h
    · intro u hu id' o hc
      rcases mem_ts hts hu with rfl | hu
      · cases hc
      · exact v.set u hu id' o hc
    · intro u hu en hen
      rcases mem_ts hts hu with rfl | hu
      · rcases List.mem_append.1 hen with hen | hen
        · exact hout hmono en (v.out t hm en hen)
        · rw [List.mem_singleton] at hen
          subst hen
          exact ⟨obj, rfl, Or.inr ⟨h0, hgiven⟩, by rw [hr, GoMap.get_set, if_pos rfl]; rfl⟩
      · exact hout hmono en (v.out u hu en hen)
  · have hmono : ∀ id, (c.reg.get id).isSome → (c'.reg.get id).isSome := by rw [hr]; exact fun _ h => h
    refine ⟨by rw [hr]; exact fun id o h => (v.reg id o h).mono e, by rw [hr]; exact v.keep, ?_, ?_⟩
    · intro u hu id' o hc
      rcases mem_ts hts hu with rfl | hu
      · cases hc
      · exact v.set u hu id' o hc
    · intro u hu en hen
      refine hout hmono en ?_
      rcases mem_ts hts hu with rfl | hu
      · rcases List.mem_append.1 hen with hen | hen
        · exact v.out t hm en hen
        · rw [List.mem_singleton] at hen
          subst hen
          refine ⟨?_, fun w hw => v.reg id w hw⟩
          cases hg : reg0.get id with
          | none => exact Bool.false_le _
          | some w => rw [v.keep id w hg]; exact Bool.le_refl _
      · exact v.out u hu en hen

theorem inv_start (reg0 : GoMap Str Nat) (calls : List (List Call)) : Inv reg0 (.start reg0 calls) := by
  refine ⟨fun id o h => Or.inl h, fun id o h => h, ?_, ?_⟩
  · intro t ht id o h
    simp only [Conf.start, List.mem_map] at ht
    obtain ⟨l, _, rfl⟩ := ht
    cases h
  · intro t ht en hen
    simp only [Conf.start, List.mem_map] at ht
    obtain ⟨l, _, rfl⟩ := ht
    cases hen

/-- Whatever goroutines register: an object that was registered stays, and is what every call under its
identifier returns; under any other identifier there is only what somebody gave under it; and an
identifier whose registration has returned is registered. -/
theorem C90_registry {reg0 : GoMap Str Nat} {calls : List (List Call)} {is : List Nat} {c : Conf}
    (e : (Conf.start reg0 calls).run is = some c) (id : Str) :
    (∀ obj, reg0.get id = some obj → c.reg.get id = some obj ∧ ∀ t ∈ c.ts,
      (∀ o res, (Call.add id o, res) ∈ t.out → res = some obj) ∧
      ∀ res, (Call.find id, res) ∈ t.out → res = some obj) ∧
    (reg0.get id = none → (∀ obj, c.reg.get id = some obj → c.Given id obj) ∧ ∀ t ∈ c.ts,
      (∀ o res, (Call.add id o, res) ∈ t.out → (c.reg.get id).isSome ∧ ∃ w, res = some w ∧ c.Given id w) ∧
      ∀ w, (Call.find id, some w) ∈ t.out → c.Given id w) := by
  have v : Inv reg0 c := run_inv (P := Inv reg0) (fun _ _ _ h e => inv_step h e) is (inv_start reg0 calls) e
  constructor
  · intro obj h0
    have hk : ∀ w, Known reg0 c id w → w = obj := by
      rintro w (h | ⟨h, _⟩)
      · rw [h0] at h; cases h; rfl
      · rw [h0] at h; cases h
    refine ⟨v.keep id obj h0, fun t ht => ⟨?_, ?_⟩⟩
    · intro o res hr
      obtain ⟨w, rfl, h2, _⟩ := v.out t ht _ hr
      rw [hk w h2]
    · intro res hr
      obtain ⟨h1, h2⟩ := v.out t ht _ hr
      cases res with
      | none => rw [h0] at h1; exact absurd (h1 rfl) Bool.false_ne_true
      | some w => rw [hk w (h2 w rfl)]
  · intro h0
    have hk : ∀ w, Known reg0 c id w → c.Given id w := by
      rintro w (h | ⟨_, h⟩)
      · rw [h0] at h; cases h
      · exact h
    refine ⟨fun obj h => hk obj (v.reg id obj h), fun t ht => ⟨?_, ?_⟩⟩
    · intro o res hr
      obtain ⟨w, h1, h2, h3⟩ := v.out t ht _ hr
      exact ⟨h3, w, h1, hk w h2⟩
    · intro w hr
      exact hk w ((v.out t ht _ hr).2 w rfl)

/-- The full claim: whoever registers an identifier, all callers get the object that is registered
under it from then on. -/
def C90_full : Prop :=
  ∀ (reg0 : GoMap Str Nat) (calls : List (List Call)) (is : List Nat) (c : Conf),
    (Conf.start reg0 calls).run is = some c →
    ∀ t ∈ c.ts, ∀ id o res, (Call.add id o, res) ∈ t.out → c.reg.get id = res

/-- Two goroutines look before either has registered: both register, and the one that came first keeps
an object which is not the registered one. -/
theorem C90_counterexample :
    (Conf.start [] [[.add (str "r") 1], [.add (str "r") 2]]).run [0, 0, 1, 1, 0, 1] =
      some { reg := [(str "r", 2)],
             ts := [{ todo := [], out := [(.add (str "r") 1, some 1)] },
                    { todo := [], out := [(.add (str "r") 2, some 2)] }] } := by decide +kernel

theorem C90_full_false : ¬ C90_full := by
  intro h
  have := h _ _ _ _ C90_counterexample { todo := [], out := [(.add (str "r") 1, some 1)] }
    (by simp) (str "r") 1 (some 1) (by simp)
  revert this
  decide +kernel

/-- A goroutine makes its calls in the order given. -/
theorem prog_run {reg0 : GoMap Str Nat} {calls : List (List Call)} {is : List Nat} {c : Conf}
    (e : (Conf.start reg0 calls).run is = some c) :
    ∀ (j : Nat) (t : Thread), c.ts[j]? = some t → calls[j]? = some (t.begun ++ t.todo) := by
  refine run_inv (P := fun c => ∀ (j : Nat) (t : Thread), c.ts[j]? = some t →
    calls[j]? = some (t.begun ++ t.todo)) ?_ is ?_ e
  · intro c c' i h e j u hu
    obtain ⟨t, t', ht, ht', _, ho, hk⟩ := step_cases e
    by_cases hji : j = i
    · subst hji
      rw [ht'] at hu; cases hu
      rw [h j t ht]
      rcases hk with ⟨call, rest, h1, h2, _, rfl⟩ | ⟨_, _, h1, _, _, rfl⟩ | ⟨_, _, _, h1, _, _, rfl⟩ |
        ⟨_, _, h1, _, rfl⟩ | ⟨_, _, h1, _, rfl⟩
      · simp [Thread.begun, h1, h2]
      all_goals simp [Thread.begun, h1]
    · exact h j u (by rw [← ho j hji]; exact hu)
  · intro j t ht
    simp only [Conf.start, List.getElem?_map, Option.map_eq_some_iff] at ht
    obtain ⟨l, h1, rfl⟩ := ht
    simpa [Thread.begun] using h1

/-- When no two goroutines register the same new identifier, all calls that return an object return
the one that is registered, and nothing registered is ever replaced. -/
theorem C90_agree_partial {reg0 : GoMap Str Nat} {calls : List (List Call)} (ap : Apart reg0 calls)
    {is : List Nat} {c : Conf} (e : (Conf.start reg0 calls).run is = some c) :
    ∀ t ∈ c.ts, ∀ id w, (∀ o, (Call.add id o, some w) ∈ t.out → c.reg.get id = some w) ∧
      ((Call.find id, some w) ∈ t.out → c.reg.get id = some w) := by
  have hall : ∀ (is : List Nat) (c : Conf), (Conf.start reg0 calls).run is = some c →
      (∀ t ∈ c.ts, ∀ id o, t.cur = some (.add id o, .set) → c.reg.get id = none) ∧
      ∀ t ∈ c.ts, ∀ id w, (∀ o, (Call.add id o, some w) ∈ t.out → c.reg.get id = some w) ∧
        ((Call.find id, some w) ∈ t.out → c.reg.get id = some w) := by
    intro is c e
    refine (run_inv (P := fun c => Inv reg0 c ∧
      (∀ (j : Nat) (t : Thread), c.ts[j]? = some t → calls[j]? = some (t.begun ++ t.todo)) ∧
      (∀ t ∈ c.ts, ∀ id o, t.cur = some (.add id o, .set) → c.reg.get id = none) ∧
      ∀ t ∈ c.ts, ∀ id w, (∀ o, (Call.add id o, some w) ∈ t.out → c.reg.get id = some w) ∧
        ((Call.find id, some w) ∈ t.out → c.reg.get id = some w)) ?_ is ?_ e).2.2
    · rintro c c' i ⟨v, hp, h1, h2⟩ e
      have hp' : ∀ (j : Nat) (t : Thread), c'.ts[j]? = some t → calls[j]? = some (t.begun ++ t.todo) := by
        intro j u hu
        obtain ⟨t, t', ht, ht', _, ho, hk⟩ := step_cases e
        by_cases hji : j = i
        · subst hji
          rw [ht'] at hu; cases hu
          rw [hp j t ht]
          rcases hk with ⟨call, rest, h1, h2, _, rfl⟩ | ⟨_, _, h1, _, _, rfl⟩ | ⟨_, _, _, h1, _, _, rfl⟩ |
            ⟨_, _, h1, _, rfl⟩ | ⟨_, _, h1, _, rfl⟩
          · simp [Thread.begun, h1, h2]
          all_goals simp [Thread.begun, h1]
        · exact hp j u (by rw [← ho j hji]; exact hu)
      refine ⟨inv_step v e, hp', ?_⟩
      obtain ⟨t, t', ht, ht', hts, ho, hk⟩ := step_cases e
      have hm : t ∈ c.ts := List.mem_of_getElem? ht
      rcases hk with ⟨call, rest, h3, h4, hr, rfl⟩ | ⟨id, obj, h3, h4, hr, rfl⟩ | ⟨id, obj, old, h3, h4, hr, rfl⟩ |
          ⟨id, obj, h3, hr, rfl⟩ | ⟨id, s, h3, hr, rfl⟩
      · rw [hr]
        refine ⟨?_, ?_⟩
        · intro u hu id o hc
          rcases mem_ts hts hu with rfl | hu
          · simp at hc
          · exact h1 u hu id o hc
        · intro u hu
          rcases mem_ts hts hu with rfl | hu
          · exact h2 t hm
          · exact h2 u hu
      · rw [hr]
        refine ⟨?_, ?_⟩
        · intro u hu id' o hc
          rcases mem_ts hts hu with rfl | hu
          · cases hc; exact h4
          · exact h1 u hu id' o hc
        · intro u hu
          rcases mem_ts hts hu with rfl | hu
          · exact h2 t hm
          · exact h2 u hu
      · rw [hr]
        refine ⟨?_, ?_⟩
        · intro u hu id' o hc
          rcases mem_ts hts hu with rfl | hu
          · cases hc
          · exact h1 u hu id' o hc
        · intro u hu id' w
          rcases mem_ts hts hu with rfl | hu
          · refine ⟨fun o ho => ?_, fun ho => ?_⟩
            · rcases List.mem_append.1 ho with ho | ho
              · exact (h2 t hm id' w).1 o ho
              · rw [List.mem_singleton] at ho
                cases ho
                exact h4
            · rcases List.mem_append.1 ho with ho | ho
              · exact (h2 t hm id' w).2 ho
              · rw [List.mem_singleton] at ho
                cases ho
          · exact h2 u hu id' w
      · have hnone := h1 t hm id obj h3
        have hstay : ∀ id' w, c.reg.get id' = some w → c'.reg.get id' = some w := by
          intro id' w h
          rw [hr, GoMap.get_set, if_neg]
          · exact h
          · rintro rfl
            rw [hnone] at h; cases h
        refine ⟨?_, ?_⟩
        · intro u hu id' o hc
          obtain ⟨j, hj⟩ := List.getElem?_of_mem hu
          by_cases hji : j = i
          · subst hji
            rw [ht'] at hj; cases hj; cases hc
          · rw [ho j hji] at hj
            have hu' := List.mem_of_getElem? hj
            rw [hr, GoMap.get_set, if_neg]
            · exact h1 u hu' id' o hc
            · rintro rfl
              have := ap i j _ _ (fun h => hji h.symm) (hp i t ht) (hp j u hj) id obj o
                (List.mem_append_left _ (by simp [Thread.begun, h3]))
                (List.mem_append_left _ (by simp [Thread.begun, hc]))
              obtain ⟨w, hw⟩ := Option.isSome_iff_exists.1 this
              rw [v.keep id w hw] at hnone
              cases hnone
        · intro u hu id' w
          rcases mem_ts hts hu with rfl | hu
          · refine ⟨fun o ho => ?_, fun ho => ?_⟩
            · rcases List.mem_append.1 ho with ho | ho
              · exact hstay id' w ((h2 t hm id' w).1 o ho)
              · rw [List.mem_singleton] at ho
                cases ho
                rw [hr, GoMap.get_set, if_pos rfl]
            · rcases List.mem_append.1 ho with ho | ho
              · exact hstay id' w ((h2 t hm id' w).2 ho)
              · rw [List.mem_singleton] at ho
                cases ho
          · exact ⟨fun o ho => hstay id' w ((h2 u hu id' w).1 o ho), fun ho => hstay id' w ((h2 u hu id' w).2 ho)⟩
      · rw [hr]
        refine ⟨?_, ?_⟩
        · intro u hu id' o hc
          rcases mem_ts hts hu with rfl | hu
          · cases hc
          · exact h1 u hu id' o hc
        · intro u hu id' w
          rcases mem_ts hts hu with rfl | hu
          · refine ⟨fun o ho => ?_, fun ho => ?_⟩
            · rcases List.mem_append.1 ho with ho | ho
              · exact (h2 t hm id' w).1 o ho
              · rw [List.mem_singleton] at ho
                cases ho
            · rcases List.mem_append.1 ho with ho | ho
              · exact (h2 t hm id' w).2 ho
              · rw [List.mem_singleton] at ho
                injection ho with ho1 ho2
                cases ho1
                exact ho2.symm
          · exact h2 u hu id' w
    · refine ⟨inv_start reg0 calls, prog_run (is := []) rfl, ?_, ?_⟩
      · intro t ht id o h
        simp only [Conf.start, List.mem_map] at ht
        obtain ⟨l, _, rfl⟩ := ht
        cases h
      · intro t ht id w
        simp only [Conf.start, List.mem_map] at ht
        obtain ⟨l, _, rfl⟩ := ht
        exact ⟨(fun o h => by cases h), (fun h => by cases h)⟩
  exact (hall is c e).2

/-- What a call does when nobody interrupts it: the registry after it, and the object returned. -/
def Call.seq (reg : GoMap Str Nat) : Call → GoMap Str Nat × Option Nat
  | .find id => (reg, reg.get id)
  | .add id obj =>
    match reg.get id with
    | some old => (reg, some old)
    | none => (reg.set id obj, some obj)

/-- A call that nobody interrupts returns what is registered, or registers the object given. -/
theorem C90_alone (reg : GoMap Str Nat) (call : Call) {ts : List Thread} {i : Nat} {t : Thread} {rest : List Call}
    (ht : ts[i]? = some t) (hc : t.cur = none) (hr : t.todo = call :: rest) :
    ∃ n, Conf.run { reg := reg, ts := ts } (List.replicate n i) =
      some { reg := (call.seq reg).1,
             ts := ts.set i { cur := none, todo := rest, out := t.out ++ [(call, (call.seq reg).2)] } } := by
  obtain ⟨hl, rfl⟩ := List.getElem?_eq_some_iff.1 ht
  cases call with
  | find id => exact ⟨2, by simp [List.replicate, Conf.run, Conf.step, hc, hr, hl, step1, Call.seq]⟩
  | add id obj =>
    cases hg : reg.get id with
    | some old => exact ⟨2, by simp [List.replicate, Conf.run, Conf.step, hc, hr, hl, step1, Call.seq, hg]⟩
    | none => exact ⟨3, by simp [List.replicate, Conf.run, Conf.step, hc, hr, hl, step1, Call.seq, hg]⟩

/-- Hypotheses met: both goroutines add "r", which is registered, and one of them adds "s". -/
theorem apart_example : Apart [(str "r", 7)] [[.add (str "r") 1, .add (str "s") 3], [.add (str "r") 2]] := by
  intro i j l m hij hl hm id a b ha hb
  have hr : (GoMap.get [(str "r", 7)] (str "r")).isSome := by decide +kernel
  match i, j with
  | 0, 0 => exact absurd rfl hij
  | 0, 1 =>
    cases hl; cases hm
    simp only [List.mem_singleton, Call.add.injEq] at hb
    rw [hb.1]; exact hr
  | 1, 0 =>
    cases hl; cases hm
    simp only [List.mem_singleton, Call.add.injEq] at ha
    rw [ha.1]; exact hr
  | 1, 1 => exact absurd rfl hij
  | 0, j + 2 => simp at hm
  | 1, j + 2 => simp at hm
  | i + 2, _ => simp at hl

example : (Conf.start [(str "r", 7)] [[.add (str "r") 1, .add (str "s") 3], [.add (str "r") 2]]).run
    [0, 1, 0, 1, 0, 0, 0] =
    some { reg := [(str "r", 7), (str "s", 3)],
           ts := [{ todo := [], out := [(.add (str "r") 1, some 7), (.add (str "s") 3, some 3)] },
                  { todo := [], out := [(.add (str "r") 2, some 7)] }] } := by decide +kernel

end RC
end Verif
