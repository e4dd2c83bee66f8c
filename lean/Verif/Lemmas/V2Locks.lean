import Verif.Model.V2Locks
import Verif.Lemmas.V2Role
import Mathlib.Logic.Hydra
import Mathlib.SetTheory.Ordinal.Family

/-!
# Lemmas on locks and schedules (package v2)
-/

namespace Verif

/-! ## Lock discipline of a program -/

namespace Prog

/-- The program, run by a goroutine that holds exactly `h`, holds one lock at a time, unlocks only what it holds and
returns without locks. -/
def Fits : List (Lock × Bool) → Prog → Prop
  | h, done _ => h = []
  | h, lock l w k => h = [] ∧ Fits [(l, w)] k
  | h, unlock l w k => h = [(l, w)] ∧ Fits [] k
  | h, read _ k => ∀ v, Fits h (k v)
  | h, upd _ _ k => Fits h k
  | h, bfs _ _ _ _ _ k => ∀ s, Fits h (k s)
  | h, dfs _ _ k => ∀ b, Fits h (k b)

end Prog

namespace LCall
open Prog

theorem fits_locked {l : Lock} {body : (Option (List Str) → Prog) → Prog}
    (h : ∀ k : Option (List Str) → Prog, (∀ r, Fits [(l, true)] (k r)) → Fits [(l, true)] (body k)) : Fits [] (locked l body) :=
  ⟨rfl, h _ fun _ => ⟨rfl, rfl⟩⟩

theorem fits_updAll {α : Type} {x : Loc} {f : α → Cell x → Cell x} {as : List α} {k : Prog} {h : List (Lock × Bool)}
    (hk : Fits h k) : Fits h (updAll x f as k) := by
  induction as with
  | nil => exact hk
  | cons a as ih => exact ih

theorem fits_resolveK {names : Bool} {r : Str} {k : List Str → Prog} (hk : ∀ s, Fits [] (k s)) : Fits [] (resolveK names r k) := by
  refine ⟨rfl, fun m => ?_⟩
  simp only
  split
  · exact ⟨rfl, hk _⟩
  · exact ⟨rfl, rfl, fun s => ⟨rfl, hk s⟩⟩

theorem fits_judgeK (acts : List Act) : Fits [] (judgeK acts) := by
  induction acts with
  | nil => rfl
  | cons a acts ih =>
    cases a with
    | peek x =>
      unfold judgeK
      split
      · exact fun _ => ih
      · exact ih
    | resolve names r => exact fits_resolveK fun _ => ih
    | getTenant => exact ⟨rfl, fun _ => ⟨rfl, ih⟩⟩

theorem fits_readPRs {l : List (Option Nat)} {k : List (Option Nat × PR) → Prog} {h : List (Lock × Bool)} (hk : ∀ us, Fits h (k us)) :
    Fits h (readPRs l k) := by
  induction l generalizing k with
  | nil => exact hk _
  | cons x l ih =>
    cases x with
    | none => exact ih fun _ => hk _
    | some i => exact fun _ => ih fun _ => hk _

theorem fits_addPRs {is : List Nat} {k : Prog} {h : List (Lock × Bool)} (hk : Fits h k) : Fits h (addPRs is k) := by
  induction is with
  | nil => exact hk
  | cons i is ih => exact fun _ => ih

theorem fits_foldr {α : Type} {f : α → Prog → Prog} {as : List α} {k : Prog} {h : List (Lock × Bool)}
    (hf : ∀ a k, Fits h k → Fits h (f a k)) (hk : Fits h k) : Fits h (as.foldr f k) := by
  induction as with
  | nil => exact hk
  | cons a as ih => exact hf a _ ih

theorem fits_prog (call : LCall) : Fits [] call.prog := by
  cases call with
  | addPermission a ps => exact fits_locked fun k hk => fits_updAll (hk _)
  | removePermission a ps => exact fits_locked fun k hk => fits_updAll (hk _)
  | addNamespace c n d =>
    unfold prog
    refine fits_locked ?_
    intro k hk m
    have ht : Fits [(.tenant c, true)] (if d = true then Prog.upd (.defNs c) (fun _ => n) (k none) else k none) := by
      split <;> exact hk _
    simp only
    split
    · exact ht
    · exact ht
  | addScopes c n scs =>
    unfold prog
    refine fits_locked ?_
    intro k hk m
    simp only
    split
    · exact hk _
    · exact fits_updAll (hk _)
  | addChildTenant c ds =>
    unfold prog
    refine fits_locked ?_
    intro k hk
    refine fits_foldr ?_ (hk _)
    exact fun _ _ h _ => h
  | addRoles as =>
    unfold prog
    refine fits_locked ?_
    intro k hk
    refine fits_foldr ?_ (hk _)
    exact fun _ _ h _ => h
  | addChildRole p cs =>
    unfold prog
    refine fits_locked ?_
    intro k hk b
    simp only
    split
    · exact hk _
    · exact hk _
  | resolve names r => exact fits_resolveK fun _ => rfl
  | getRole r => exact fun _ => rfl
  | addTenant c =>
    unfold prog
    refine fits_locked ?_
    intro k hk _ _
    refine fits_foldr ?_ (hk _)
    exact fun _ _ h _ => h
  | getTenant id =>
    unfold prog
    refine fits_locked ?_
    exact fun k hk _ => hk _
  | setDefaultTenant id => exact rfl
  | addPrincipalRole is => exact fits_locked fun k hk => fits_addPRs (hk _)
  | removePrincipalRole target =>
    refine fun l => fits_readPRs fun us => ?_
    split
    · exact fun m => fits_readPRs fun vs => rfl
    · rfl
  | setExpiry i e => exact rfl
  | judge acts => exact fits_judgeK acts

end LCall

/-! ## Invariants of configurations -/

/-- The goroutine follows the discipline. -/
def Thread.Ok (t : Thread) : Prop :=
  match t.cur with
  | none => t.held = []
  | some (_, p) => p.Fits t.held

namespace Conf
variable {c c' : Conf}

/-- The cases of a step. -/
inductive Moves (c : Conf) (i : Nat) (t : Thread) : Conf → Prop where
  | call {call rest} : t.cur = none → t.todo = call :: rest →
      Moves c i t { c with threads := c.threads.set i { t with cur := some (call, call.prog), waiting := false, todo := rest } }
  | ret {call r} : t.cur = some (call, .done r) →
      Moves c i t { c with threads := c.threads.set i { t with cur := none, out := t.out ++ [(call, r)] } }
  | prog {call p m b h k} : t.cur = some (call, p) → c.stepProg t.waiting t.held p = some (m, b, h, k) →
      Moves c i t { mem := m, threads := c.threads.set i { t with cur := some (call, k), waiting := b, held := h } }

theorem step_eq {i : Nat} (h : c.step i = some c') : ∃ t, c.threads[i]? = some t ∧ Moves c i t c' := by
  unfold step at h
  split at h
  · cases h
  · rename_i t ht
    refine ⟨t, ht, ?_⟩
    split at h
    · rename_i hc
      split at h
      · cases h
      · rename_i call rest htodo
        cases h
        exact .call hc htodo
    · rename_i call r hc
      cases h
      exact .ret hc
    · rename_i call p _ hc
      obtain ⟨⟨m, b, hl, k⟩, h1, h2⟩ := Option.map_eq_some_iff.1 h
      cases h2
      exact .prog hc h1

theorem step_prog {i : Nat} {t : Thread} {call : LCall} {p : Prog} {s : V2 × Bool × List (Lock × Bool) × Prog}
    (ht : c.threads[i]? = some t) (hc : t.cur = some (call, p)) (h : c.stepProg t.waiting t.held p = some s) :
    c.step i = some { mem := s.1, threads := c.threads.set i { t with cur := some (call, s.2.2.2), waiting := s.2.1, held := s.2.2.1 } } := by
  unfold step
  rw [ht]
  simp only
  rw [hc]
  cases p with
  | done r => cases h
  | _ => simp only [h, Option.map_some]

theorem stepProg_fits {w : Bool} {held : List (Lock × Bool)} {p : Prog} {m : V2} {b : Bool} {h : List (Lock × Bool)} {k : Prog}
    (hs : c.stepProg w held p = some (m, b, h, k)) (hf : p.Fits held) : k.Fits h := by
  cases p with
  | done r => cases hs
  | lock l w p =>
    obtain ⟨rfl, hf⟩ := hf
    cases w <;> simp only [stepProg] at hs
    · split at hs <;> cases hs
      exact hf
    · split at hs <;> split at hs <;> cases hs
      · exact hf
      · exact ⟨rfl, hf⟩
  | unlock l w p =>
    obtain ⟨rfl, hf⟩ := hf
    simp [stepProg] at hs
    obtain ⟨rfl, rfl, rfl, rfl⟩ := hs
    exact hf
  | read x p => cases hs; exact hf _
  | upd x f p => cases hs; exact hf
  | bfs names a q V res p =>
    cases a with
    | pop =>
      cases q with
      | nil => cases hs; exact hf _
      | cons x q =>
        simp only [stepProg] at hs
        split at hs
        · cases hs; exact hf
        · split at hs <;> cases hs <;> exact hf
    | emit x a => cases hs; exact hf
    | push x => cases hs; exact hf
  | dfs q V p =>
    cases q with
    | nil => cases hs; exact hf _
    | cons x q =>
      simp only [stepProg] at hs
      split at hs <;> cases hs
      · exact hf _
      · exact hf

/-- An invariant of every goroutine that the moves preserve. -/
theorem threads_set {P : Thread → Prop} {ts : List Thread} {i : Nat} {t : Thread} (h : ∀ t ∈ ts, P t) (ht : P t) :
    ∀ u ∈ ts.set i t, P u := fun u hu => by
  rcases List.mem_or_eq_of_mem_set hu with h1 | h1
  · exact h u h1
  · exact h1 ▸ ht

theorem step_ok {i : Nat} (h : c.step i = some c') (ok : ∀ t ∈ c.threads, t.Ok) : ∀ t ∈ c'.threads, t.Ok := by
  obtain ⟨t, ht, mv⟩ := step_eq h
  have hok := ok t (List.mem_of_getElem? ht)
  unfold Thread.Ok at hok
  cases mv with
  | call h1 h2 =>
    rw [h1] at hok
    refine threads_set ok ?_
    show Prog.Fits t.held _
    have : t.held = [] := hok
    rw [this]
    exact LCall.fits_prog _
  | ret h1 =>
    rw [h1] at hok
    exact threads_set ok hok
  | prog h1 h2 =>
    rw [h1] at hok
    exact threads_set ok (stepProg_fits h2 hok)

theorem run_inv {P : Conf → Prop} (hs : ∀ c c' i, P c → c.step i = some c' → P c') {is : List Nat} (h : c.run is = some c') (hp : P c) : P c' := by
  induction is generalizing c with
  | nil => cases h; exact hp
  | cons i is ih =>
    obtain ⟨c1, h1, h2⟩ := Option.bind_eq_some_iff.1 h
    exact ih h2 (hs _ _ _ hp h1)

theorem run_append {is js : List Nat} : c.run (is ++ js) = (c.run is).bind fun c1 => c1.run js := by
  induction is generalizing c with
  | nil => rfl
  | cons i is ih =>
    simp only [List.cons_append, run]
    cases c.step i with
    | none => rfl
    | some c1 => exact ih

theorem start_ok {w : V2} {calls : List (List LCall)} : ∀ t ∈ (start w calls).threads, t.Ok := fun t ht => by
  obtain ⟨cs, _, rfl⟩ := List.mem_map.1 ht
  rfl

theorem run_ok {w : V2} {calls : List (List LCall)} {is : List Nat} (h : (start w calls).run is = some c) : ∀ t ∈ c.threads, t.Ok :=
  run_inv (P := fun c => ∀ t ∈ c.threads, t.Ok) (fun _ _ _ hp hs => step_ok hs hp) h start_ok

/-! ### Some goroutine can move -/

/-- A program can move unless it is about to lock. -/
theorem stepProg_moves {w : Bool} {held : List (Lock × Bool)} {p : Prog} (hf : p.Fits held) (hd : ∀ r, p ≠ .done r)
    (hl : ∀ l b k, p = .lock l b k → (b = true ∧ w = true ∧ c.hasReader l = false) ∨ ((b = false ∨ w = false) ∧ c.claimed l = false)) :
    ∃ s, c.stepProg w held p = some s := by
  cases p with
  | done r => exact absurd rfl (hd r)
  | lock l b p =>
    rcases hl l b p rfl with ⟨rfl, rfl, h1⟩ | ⟨h0, h1⟩
    · simp [stepProg, h1]
    · cases b
      · simp [stepProg, h1]
      · have : w = false := h0.resolve_left (by simp)
        simp [stepProg, h1, this]
  | unlock l w p =>
    obtain ⟨rfl, hf⟩ := hf
    exact ⟨_, by simp [stepProg]; rfl⟩
  | read x p => exact ⟨_, rfl⟩
  | upd x f p => exact ⟨_, rfl⟩
  | bfs names a q V res p =>
    cases a with
    | pop =>
      cases q with
      | nil => exact ⟨_, rfl⟩
      | cons x q =>
        simp only [stepProg]
        split
        · exact ⟨_, rfl⟩
        · split <;> exact ⟨_, rfl⟩
    | emit x a => exact ⟨_, rfl⟩
    | push x => exact ⟨_, rfl⟩
  | dfs q V p =>
    cases q with
    | nil => exact ⟨_, rfl⟩
    | cons x q =>
      simp only [stepProg]
      split <;> exact ⟨_, rfl⟩

theorem progress (ok : ∀ t ∈ c.threads, t.Ok) (h : ∃ t ∈ c.threads, t.cur ≠ none ∨ t.todo ≠ []) : ∃ i c', c.step i = some c' := by
  have move : ∀ t ∈ c.threads, ∀ call p, t.cur = some (call, p) →
      (∀ l b k, p = .lock l b k → (b = true ∧ t.waiting = true ∧ c.hasReader l = false) ∨
        ((b = false ∨ t.waiting = false) ∧ c.claimed l = false)) → ∃ i c', c.step i = some c' := by
    intro t ht call p hc h2
    obtain ⟨i, hi⟩ := List.mem_iff_getElem?.1 ht
    have hok := ok t ht
    unfold Thread.Ok at hok
    rw [hc] at hok
    by_cases hd : ∃ r, p = .done r
    · obtain ⟨r, rfl⟩ := hd
      exact ⟨i, _, by unfold step; rw [hi]; simp only; rw [hc]⟩
    · obtain ⟨s, hs⟩ := stepProg_moves (c := c) hok (fun r hr => hd ⟨r, hr⟩) h2
      exact ⟨i, _, step_prog hi hc hs⟩
  by_cases hh : ∃ t ∈ c.threads, t.held ≠ []
  · obtain ⟨t, ht, hne⟩ := hh
    have hok := ok t ht
    unfold Thread.Ok at hok
    cases hc : t.cur with
    | none => rw [hc] at hok; exact absurd hok hne
    | some x =>
      rw [hc] at hok
      refine move t ht x.1 x.2 hc fun l b k hp => ?_
      have hok : Prog.Fits t.held x.2 := hok
      rw [hp] at hok
      exact absurd hok.1 hne
  · have hall : ∀ t ∈ c.threads, t.held = [] := fun t ht => Classical.byContradiction fun hn => hh ⟨t, ht, hn⟩
    have hr : ∀ l, c.hasReader l = false := fun l => by
      unfold hasReader
      rw [List.any_eq_false]
      intro t ht
      simp [hall t ht]
    by_cases hw : ∃ t ∈ c.threads, t.waiting = true ∧ ∃ call l k, t.cur = some (call, .lock l true k)
    · obtain ⟨t, ht, hw, call, l, k, hc⟩ := hw
      exact move t ht call _ hc fun l b k hp => by cases hp; exact .inl ⟨rfl, hw, hr _⟩
    · have hcl : ∀ l, c.claimed l = false := fun l => by
        unfold claimed
        rw [List.any_eq_false]
        intro t ht
        rw [hall t ht]
        simp only [List.contains_nil, Bool.false_or, Bool.not_eq_true]
        split
        · rename_i call l' k hc
          cases hwt : t.waiting with
          | false => rfl
          | true => exact absurd ⟨t, ht, hwt, call, l', k, hc⟩ hw
        · rfl
      obtain ⟨t, ht, h3⟩ := h
      cases hc : t.cur with
      | some x =>
        refine move t ht x.1 x.2 hc fun l b k hp => .inr ⟨?_, hcl l⟩
        cases b with
        | false => exact .inl rfl
        | true =>
          cases hwt : t.waiting with
          | false => exact .inr rfl
          | true => exact absurd ⟨t, ht, hwt, x.1, l, k, by rw [hc, ← hp]⟩ hw
      | none =>
        rcases h3 with h3 | h3
        · exact absurd hc h3
        · obtain ⟨i, hi⟩ := List.mem_iff_getElem?.1 ht
          cases htd : t.todo with
          | nil => exact absurd htd h3
          | cons call rest =>
            exact ⟨i, _, by unfold step; rw [hi]; simp only; rw [hc]; simp only; rw [htd]⟩

end Conf

/-! ## Termination -/

namespace Prog

/-- How much of the program is left, a loop counted as one step. -/
noncomputable def rank : Prog → Ordinal.{0}
  | done _ => 0
  | lock _ _ k => rank k + 1
  | unlock _ _ k => rank k + 1
  | read _ k => ⨆ v, (rank (k v) + 1)
  | upd _ _ k => rank k + 1
  | bfs _ _ _ _ _ k => ⨆ s, (rank (k s) + 1)
  | dfs _ _ k => ⨆ b, (rank (k b) + 1)

theorem lt_sup {α : Type} (f : α → Ordinal.{0}) (a : α) : f a < ⨆ v, (f v + 1) :=
  lt_of_lt_of_le (Order.lt_add_one_iff.2 le_rfl) (Ordinal.le_iSup (fun v => f v + 1) a)

/-- How much of the loop is left, if the memory does not change. -/
def todo (m : V2) : Prog → Nat
  | bfs _ .pop q V _ _ => 6 * (Dag.pending m.dag.edges V + q.length)
  | bfs _ (.emit x _) q V _ _ => 6 * (Dag.pending m.dag.edges V + q.length + (m.dag.children x).length) + 4
  | bfs _ (.push x) q V _ _ => 6 * (Dag.pending m.dag.edges V + q.length + (m.dag.children x).length) + 2
  | dfs q V _ => 6 * (Dag.pending m.dag.edges V + q.length)
  | _ => 0

end Prog

theorem Dag.pending_le {E : GoMap Str (List Str)} {V : List Str} {c : Str} (hc : c ∉ V) :
    Dag.pending E (V ++ [c]) + ((E.get c).getD []).length ≤ Dag.pending E V := by
  induction E with
  | nil => simp [Dag.pending]
  | cons e E ih =>
    obtain ⟨k, cs⟩ := e
    by_cases hk : k = c
    · subst hk
      have h1 : Dag.pending ((k, cs) :: E) (V ++ [k]) = Dag.pending E (V ++ [k]) := by simp [Dag.pending]
      have h2 : Dag.pending ((k, cs) :: E) V = cs.length + Dag.pending E V := by simp [Dag.pending, hc]
      rw [h1, h2]
      have : GoMap.get ((k, cs) :: E) k = some cs := by simp [GoMap.get]
      rw [this]
      simp only [Option.getD_some]
      omega
    · have hg : GoMap.get ((k, cs) :: E) c = GoMap.get E c := by simp [GoMap.get, hk]
      rw [hg]
      by_cases hv : k ∈ V
      · have h1 : Dag.pending ((k, cs) :: E) (V ++ [c]) = Dag.pending E (V ++ [c]) := by simp [Dag.pending, hv]
        have h2 : Dag.pending ((k, cs) :: E) V = Dag.pending E V := by simp [Dag.pending, hv]
        rw [h1, h2]; exact ih
      · have h1 : Dag.pending ((k, cs) :: E) (V ++ [c]) = cs.length + Dag.pending E (V ++ [c]) := by simp [Dag.pending, hv, hk]
        have h2 : Dag.pending ((k, cs) :: E) V = cs.length + Dag.pending E V := by simp [Dag.pending, hv]
        rw [h1, h2]; omega

namespace Conf
variable {c c' : Conf}

/-- Every step shortens the program or its current loop, or starts waiting. -/
theorem stepProg_shrinks {w : Bool} {held : List (Lock × Bool)} {p : Prog} {m : V2} {b : Bool} {h : List (Lock × Bool)} {k : Prog}
    (hs : c.stepProg w held p = some (m, b, h, k)) :
    k.rank < p.rank ∨ (k.rank = p.rank ∧ m = c.mem ∧
      k.todo m + (if b then 0 else 1) < p.todo c.mem + (if w then 0 else 1)) := by
  have lt1 : ∀ a : Ordinal.{0}, a < a + 1 := fun a => Order.lt_add_one_iff.2 le_rfl
  have le1 : (if w = true then 0 else 1) ≤ 1 := by split <;> omega
  cases p with
  | done r => cases hs
  | lock l b p =>
    cases b <;> simp only [stepProg] at hs
    · split at hs <;> cases hs
      exact .inl (lt1 _)
    · split at hs <;> split at hs <;> cases hs
      · exact .inl (lt1 _)
      · rename_i hw _
        refine .inr ⟨rfl, rfl, ?_⟩
        simp [Prog.todo, hw]
  | unlock l w p =>
    left
    simp only [stepProg] at hs
    split at hs <;> cases hs
    exact lt1 _
  | read x p => cases hs; exact .inl (Prog.lt_sup (fun v => (p v).rank) _)
  | upd x f p => cases hs; exact .inl (lt1 _)
  | bfs names a q V res p =>
    cases a with
    | pop =>
      cases q with
      | nil => cases hs; exact .inl (Prog.lt_sup (fun v => (p v).rank) _)
      | cons x q =>
        right
        simp only [stepProg] at hs
        split at hs
        · cases hs
          exact ⟨rfl, rfl, by simp only [Prog.todo, List.length_cons, Bool.false_eq_true, if_false]; omega⟩
        · rename_i hx
          have hp := Dag.pending_le (E := c.mem.dag.edges) hx
          split at hs <;> cases hs
          · exact ⟨rfl, rfl, by simp only [Prog.todo, List.length_cons, Bool.false_eq_true, if_false]; omega⟩
          · exact ⟨rfl, rfl, by simp only [Prog.todo, List.length_cons, Dag.children, Bool.false_eq_true, if_false]; omega⟩
    | emit x a => cases hs; exact .inr ⟨rfl, rfl, by simp only [Prog.todo, Bool.false_eq_true, if_false]; omega⟩
    | push x => cases hs; exact .inr ⟨rfl, rfl, by simp only [Prog.todo, List.length_append, Bool.false_eq_true, if_false]; omega⟩
  | dfs q V p =>
    cases q with
    | nil => cases hs; exact .inl (Prog.lt_sup (fun v => (p v).rank) _)
    | cons x q =>
      simp only [stepProg] at hs
      split at hs
      · cases hs; exact .inl (Prog.lt_sup (fun v => (p v).rank) _)
      · rename_i hx
        have hp := Dag.pending_le (E := c.mem.dag.edges) hx
        cases hs
        exact .inr ⟨rfl, rfl, by simp only [Prog.todo, List.length_cons, List.length_append, Dag.children, Bool.false_eq_true, if_false]; omega⟩

/-- What is left of a goroutine: calls, and the program of the current one. -/
noncomputable def left (t : Thread) : ℕ × Ordinal.{0} :=
  match t.cur with
  | none => (2 * t.todo.length, 0)
  | some (_, p) => (2 * t.todo.length + 1, p.rank)

/-- What is left of the loop a goroutine is in; waiting comes after not waiting. -/
def loop (m : V2) (t : Thread) : Nat :=
  match t.cur with
  | none => 0
  | some (_, p) => p.todo m + if t.waiting then 0 else 1

abbrev Less : ℕ × Ordinal.{0} → ℕ × Ordinal.{0} → Prop := Prod.Lex (· < ·) (· < ·)

/-- The measure of a configuration. -/
noncomputable def measure (c : Conf) : Multiset (ℕ × Ordinal.{0}) × ℕ :=
  ((c.threads.map left : List (ℕ × Ordinal.{0})), (c.threads.map (loop c.mem)).sum)

theorem wf_measure : WellFounded (Prod.Lex (Relation.CutExpand Less) (· < · : ℕ → ℕ → Prop)) :=
  WellFounded.prod_lex (WellFounded.cutExpand (WellFounded.prod_lex Nat.lt_wfRel.wf Ordinal.lt_wf)) Nat.lt_wfRel.wf

theorem map_set_perm {α : Type 1} {f : Thread → α} {ts : List Thread} {i : Nat} {t u : Thread} (h : ts[i]? = some t) :
    ((ts.map f : List α) : Multiset α) = {f t} + ((ts.eraseIdx i).map f : List α) ∧
    (((ts.set i u).map f : List α) : Multiset α) = {f u} + ((ts.eraseIdx i).map f : List α) := by
  induction ts generalizing i with
  | nil => simp at h
  | cons a ts ih =>
    cases i with
    | zero =>
      simp only [List.getElem?_cons_zero, Option.some.injEq] at h
      subst h
      exact ⟨rfl, rfl⟩
    | succ i =>
      simp only [List.getElem?_cons_succ] at h
      obtain ⟨h1, h2⟩ := ih h
      simp only [List.map_cons, List.eraseIdx_cons_succ, List.set_cons_succ]
      rw [← Multiset.cons_coe, ← Multiset.cons_coe, h1, ← Multiset.cons_coe, h2]
      simp only [Multiset.singleton_add]
      exact ⟨Multiset.cons_swap .., Multiset.cons_swap ..⟩

theorem cut {ts : List Thread} {i : Nat} {t u : Thread} (h : ts[i]? = some t) (hl : Less (left u) (left t)) :
    Relation.CutExpand Less ((ts.set i u).map left : List _) (ts.map left : List _) := by
  obtain ⟨h1, h2⟩ := map_set_perm (f := left) (u := u) h
  rw [h1, h2]
  exact Relation.cutExpand_single_add hl _

theorem sum_set {f : Thread → Nat} {ts : List Thread} {i : Nat} {t u : Thread} (h : ts[i]? = some t) (hl : f u < f t) :
    ((ts.set i u).map f).sum < (ts.map f).sum := by
  induction ts generalizing i with
  | nil => simp at h
  | cons a ts ih =>
    cases i with
    | zero =>
      simp only [List.getElem?_cons_zero, Option.some.injEq] at h
      subst h
      simpa using hl
    | succ i =>
      simp only [List.getElem?_cons_succ] at h
      simpa using ih h

theorem step_measure {i : Nat} (h : c.step i = some c') :
    Prod.Lex (Relation.CutExpand Less) (· < ·) c'.measure c.measure := by
  obtain ⟨t, ht, mv⟩ := step_eq h
  cases mv with
  | call h1 h2 =>
    refine .left _ _ (cut ht ?_)
    simp only [left, h1, h2]
    exact .left _ _ (by simp only [List.length_cons]; omega)
  | ret h1 =>
    refine .left _ _ (cut ht ?_)
    simp only [left, h1]
    exact .left _ _ (by omega)
  | @prog call p m b hl k h1 h2 =>
    rcases stepProg_shrinks h2 with h3 | ⟨h3, h4, h5⟩
    · refine .left _ _ (cut ht ?_)
      simp only [left, h1]
      exact .right _ h3
    · subst h4
      have e : (((c.threads.set i { t with cur := some (call, k), waiting := b, held := hl }).map left : List _) : Multiset (ℕ × Ordinal.{0}))
          = (c.threads.map left : List _) := by
        obtain ⟨g1, g2⟩ := map_set_perm (f := left) (u := { t with cur := some (call, k), waiting := b, held := hl }) ht
        rw [g1, g2]
        simp only [left, h1, h3]
      unfold measure
      simp only
      rw [e]
      refine .right _ (sum_set ht ?_)
      simp only [loop, h1]
      exact h5

theorem wf_step : WellFounded fun c' c : Conf => ∃ i, c.step i = some c' := by
  refine Subrelation.wf (fun {c' c} h => ?_) (InvImage.wf measure wf_measure)
  obtain ⟨i, h⟩ := h
  exact step_measure h

/-! ## Mutual exclusion -/

/-- The goroutine has write-locked `l` or announced that it will. -/
def _root_.Verif.Thread.Claims (t : Thread) (l : Lock) : Prop :=
  (l, true) ∈ t.held ∨ (t.waiting = true ∧ ∃ call k, t.cur = some (call, .lock l true k))

/-- A lock that is write-locked is not held by another goroutine, and only one goroutine at a time waits for it. -/
structure Excl (c : Conf) : Prop where
  one : ∀ (i j : Nat) (t u : Thread) l, i ≠ j → c.threads[i]? = some t → c.threads[j]? = some u → t.Claims l → ¬ u.Claims l
  alone : ∀ (i j : Nat) (t u : Thread) l, i ≠ j → c.threads[i]? = some t → c.threads[j]? = some u → (l, true) ∈ t.held → (l, false) ∉ u.held

theorem not_claimed {l : Lock} (h : c.claimed l = false) {t : Thread} (ht : t ∈ c.threads) : ¬ t.Claims l := by
  unfold claimed at h
  rw [List.any_eq_false] at h
  have h1 := h t ht
  intro h2
  rcases h2 with h2 | ⟨h3, call, k, h2⟩
  · simp [h2] at h1
  · simp [h2, h3] at h1

theorem not_reader {l : Lock} (h : c.hasReader l = false) {t : Thread} (ht : t ∈ c.threads) : (l, false) ∉ t.held := by
  unfold hasReader at h
  rw [List.any_eq_false] at h
  have h1 := h t ht
  intro h2
  simp [h2] at h1

/-- What a step of a program does to the claims and read locks of its goroutine. -/
theorem stepProg_claims {t : Thread} {call : LCall} {p : Prog} {m : V2} {b : Bool} {h : List (Lock × Bool)} {k : Prog}
    (hc : t.cur = some (call, p)) (hs : c.stepProg t.waiting t.held p = some (m, b, h, k)) :
    (∀ l, Thread.Claims { t with cur := some (call, k), waiting := b, held := h } l → t.Claims l ∨ c.claimed l = false) ∧
    (∀ l, (l, false) ∈ h → (l, false) ∈ t.held ∨ c.claimed l = false) ∧
    (∀ l, (l, true) ∈ h → (l, true) ∈ t.held ∨ (t.Claims l ∧ c.hasReader l = false)) := by
  have keep : b = false → (∀ x ∈ h, x ∈ t.held) →
      (∀ l, Thread.Claims { t with cur := some (call, k), waiting := b, held := h } l → t.Claims l ∨ c.claimed l = false) ∧
      (∀ l, (l, false) ∈ h → (l, false) ∈ t.held ∨ c.claimed l = false) ∧
      (∀ l, (l, true) ∈ h → (l, true) ∈ t.held ∨ (t.Claims l ∧ c.hasReader l = false)) := by
    rintro rfl hw
    refine ⟨fun l hl => ?_, fun l hl => .inl (hw _ hl), fun l hl => .inl (hw _ hl)⟩
    rcases hl with hl | ⟨hl, _⟩
    · exact .inl (.inl (hw _ hl))
    · cases hl
  cases p with
  | done r => cases hs
  | lock l w p =>
    cases w <;> simp only [stepProg] at hs
    · split at hs <;> cases hs
      rename_i hcl
      have hcl : c.claimed l = false := by simpa using hcl
      refine ⟨fun l' hl => ?_, fun l' hl => ?_, fun l' hl => ?_⟩
      · rcases hl with hl | ⟨hl, _⟩
        · rcases List.mem_cons.1 hl with hl | hl
          · cases hl
          · exact .inl (.inl hl)
        · cases hl
      · rcases List.mem_cons.1 hl with hl | hl
        · cases hl; exact .inr hcl
        · exact .inl hl
      · rcases List.mem_cons.1 hl with hl | hl
        · cases hl
        · exact .inl hl
    · split at hs
      · rename_i hw
        split at hs <;> cases hs
        rename_i hr
        have hr : c.hasReader l = false := by simpa using hr
        have hcl : t.Claims l := .inr ⟨hw, call, k, hc⟩
        refine ⟨fun l' hl => ?_, fun l' hl => ?_, fun l' hl => ?_⟩
        · rcases hl with hl | ⟨hl, _⟩
          · rcases List.mem_cons.1 hl with hl | hl
            · cases hl; exact .inl hcl
            · exact .inl (.inl hl)
          · cases hl
        · rcases List.mem_cons.1 hl with hl | hl
          · cases hl
          · exact .inl hl
        · rcases List.mem_cons.1 hl with hl | hl
          · cases hl; exact .inr ⟨hcl, hr⟩
          · exact .inl hl
      · split at hs <;> cases hs
        rename_i hcl
        have hcl : c.claimed l = false := by simpa using hcl
        refine ⟨fun l' hl => ?_, fun l' hl => .inl hl, fun l' hl => .inl hl⟩
        rcases hl with hl | ⟨_, _, k', hl⟩
        · exact .inl (.inl hl)
        · simp only [Option.some.injEq, Prod.mk.injEq, Prog.lock.injEq] at hl
          exact .inr (hl.2.1 ▸ hcl)
  | unlock l w p =>
    simp only [stepProg] at hs
    split at hs <;> cases hs
    exact keep rfl fun x hx => List.mem_of_mem_erase hx
  | read x p => cases hs; exact keep rfl fun x hx => hx
  | upd x f p => cases hs; exact keep rfl fun x hx => hx
  | bfs names a q V res p =>
    have : b = false ∧ h = t.held := by
      cases a with
      | pop =>
        cases q with
        | nil => cases hs; exact ⟨rfl, rfl⟩
        | cons x q =>
          simp only [stepProg] at hs
          split at hs
          · cases hs; exact ⟨rfl, rfl⟩
          · split at hs <;> cases hs <;> exact ⟨rfl, rfl⟩
      | emit x a => cases hs; exact ⟨rfl, rfl⟩
      | push x => cases hs; exact ⟨rfl, rfl⟩
    exact keep this.1 fun x hx => this.2 ▸ hx
  | dfs q V p =>
    have : b = false ∧ h = t.held := by
      cases q with
      | nil => cases hs; exact ⟨rfl, rfl⟩
      | cons x q =>
        simp only [stepProg] at hs
        split at hs <;> cases hs <;> exact ⟨rfl, rfl⟩
    exact keep this.1 fun x hx => this.2 ▸ hx

theorem excl_start {w : V2} {calls : List (List LCall)} : Excl (start w calls) := by
  have h0 : ∀ (i : Nat) (t : Thread), (start w calls).threads[i]? = some t → t.held = [] ∧ t.waiting = false := fun i t ht => by
    obtain ⟨cs, _, rfl⟩ := List.mem_map.1 (List.mem_of_getElem? ht)
    exact ⟨rfl, rfl⟩
  refine ⟨fun i j t u l _ ht _ hcl => ?_, fun i j t u l _ ht _ hl => ?_⟩
  · obtain ⟨h1, h2⟩ := h0 i t ht
    rcases hcl with h | ⟨h, _⟩
    · rw [h1] at h; cases h
    · rw [h2] at h; cases h
  · rw [(h0 i t ht).1] at hl; cases hl

/-- Replacing one goroutine by one with no more claims keeps the exclusion. -/
theorem excl_set (e : Excl c) {i : Nat} {t t' : Thread} {m : V2} (ht : c.threads[i]? = some t)
    (h1 : ∀ l, t'.Claims l → t.Claims l ∨ c.claimed l = false)
    (h2 : ∀ l, (l, false) ∈ t'.held → (l, false) ∈ t.held ∨ c.claimed l = false)
    (h3 : ∀ l, (l, true) ∈ t'.held → (l, true) ∈ t.held ∨ (t.Claims l ∧ c.hasReader l = false)) :
    Excl { mem := m, threads := c.threads.set i t' } := by
  have look : ∀ (j : Nat) (u : Thread), (c.threads.set i t')[j]? = some u → (j = i ∧ u = t') ∨ (j ≠ i ∧ c.threads[j]? = some u) := fun j u h => by
    rw [List.getElem?_set] at h
    split at h
    · rename_i hij
      split at h
      · exact .inl ⟨hij.symm, by cases h; rfl⟩
      · cases h
    · rename_i hij
      exact .inr ⟨fun e => hij e.symm, h⟩
  refine ⟨fun a b u v l hab hu hv hcu hcv => ?_, fun a b u v l hab hu hv hcu hcv => ?_⟩
  · rcases look a u hu with ⟨rfl, rfl⟩ | ⟨ha, hu'⟩
    · rcases look b v hv with ⟨rfl, _⟩ | ⟨hb, hv'⟩
      · exact hab rfl
      · rcases h1 l hcu with g | g
        · exact e.one _ _ _ _ l hab ht hv' g hcv
        · exact not_claimed g (List.mem_of_getElem? hv') hcv
    · rcases look b v hv with ⟨rfl, rfl⟩ | ⟨hb, hv'⟩
      · rcases h1 l hcv with g | g
        · exact e.one _ _ _ _ l hab hu' ht hcu g
        · exact not_claimed g (List.mem_of_getElem? hu') hcu
      · exact e.one _ _ _ _ l hab hu' hv' hcu hcv
  · rcases look a u hu with ⟨rfl, rfl⟩ | ⟨ha, hu'⟩
    · rcases look b v hv with ⟨rfl, _⟩ | ⟨hb, hv'⟩
      · exact hab rfl
      · rcases h3 l hcu with g | ⟨_, g⟩
        · exact e.alone _ _ _ _ l hab ht hv' g hcv
        · exact not_reader g (List.mem_of_getElem? hv') hcv
    · rcases look b v hv with ⟨rfl, rfl⟩ | ⟨hb, hv'⟩
      · rcases h2 l hcv with g | g
        · exact e.alone _ _ _ _ l hab hu' ht hcu g
        · exact not_claimed g (List.mem_of_getElem? hu') (.inl hcu)
      · exact e.alone _ _ _ _ l hab hu' hv' hcu hcv

theorem excl_step {i : Nat} (h : c.step i = some c') (e : Excl c) : Excl c' := by
  obtain ⟨t, ht, mv⟩ := step_eq h
  cases mv with
  | call h1 h2 =>
    refine excl_set e ht (fun l hl => ?_) (fun l hl => .inl hl) fun l hl => .inl hl
    rcases hl with hl | ⟨hl, _⟩
    · exact .inl (.inl hl)
    · cases hl
  | ret h1 =>
    refine excl_set e ht (fun l hl => ?_) (fun l hl => .inl hl) fun l hl => .inl hl
    rcases hl with hl | ⟨_, _, _, hl⟩
    · exact .inl (.inl hl)
    · cases hl
  | prog h1 h2 =>
    obtain ⟨g1, g2, g3⟩ := stepProg_claims h1 h2
    exact excl_set e ht g1 g2 g3

end Conf
end Verif
