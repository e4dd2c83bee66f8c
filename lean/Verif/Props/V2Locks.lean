import Verif.Lemmas.V2Locks

/-!
# Package v2: calls from several goroutines (C83, C84)
-/

namespace Verif
namespace Conf
variable {c c' : Conf} {w : V2} {calls : List (List LCall)}

/-! ## C83 -/

/-- Nobody has anything left to do. -/
def Finished (c : Conf) : Prop := ∀ t ∈ c.threads, t.cur = none ∧ t.todo = []

/-- C83. Some goroutine can always move: the calls never wait for each other in a circle. -/
theorem C83_no_deadlock {is : List Nat} (h : (start w calls).run is = some c) (hn : ¬ Finished c) : ∃ i c', c.step i = some c' := by
  refine progress (run_ok h) (Classical.byContradiction fun hno => hn fun t ht => ?_)
  exact ⟨Classical.byContradiction fun h1 => hno ⟨t, ht, .inl h1⟩, Classical.byContradiction fun h1 => hno ⟨t, ht, .inr h1⟩⟩

/-- C83. No schedule goes on forever, whatever the calls. -/
theorem C83_terminates : ¬ ∃ f : Nat → Conf, f 0 = start w calls ∧ ∀ n, ∃ i, (f n).step i = some (f (n + 1)) := by
  rintro ⟨f, _, h⟩
  exact (wellFounded_iff_isEmpty_descending_chain.1 wf_step).false ⟨f, h⟩

/-- The calls of a goroutine: made, being made, to be made. -/
def ownCalls (t : Thread) : List LCall := t.out.map (·.1) ++ (t.cur.map (·.1)).toList ++ t.todo

theorem ownCalls_step {i : Nat} (h : c.step i = some c') : c'.threads.map ownCalls = c.threads.map ownCalls := by
  have key : ∀ {t u : Thread}, c.threads[i]? = some t → ownCalls u = ownCalls t → (c.threads.set i u).map ownCalls = c.threads.map ownCalls := by
    intro t u ht e
    rw [List.map_set, e]
    refine List.ext_getElem? fun j => ?_
    rw [List.getElem?_set]
    split
    · rename_i hij
      subst hij
      split
      · rw [List.getElem?_map, ht]; rfl
      · rename_i hlt
        rw [List.getElem?_eq_none (by omega)]
    · rfl
  obtain ⟨t, ht, mv⟩ := step_eq h
  cases mv with
  | call h1 h2 => exact key ht (by simp [ownCalls, h1, h2])
  | ret h1 => exact key ht (by simp [ownCalls, h1])
  | prog h1 h2 => exact key ht (by simp [ownCalls, h1])

/-- C83. When nobody can move any more, every goroutine has made all its calls, in its order, and no lock is held. -/
theorem C83_all_return {is : List Nat} (h : (start w calls).run is = some c) (hs : ∀ i, c.step i = none) :
    c.threads.map (fun t => t.out.map (·.1)) = calls ∧ ∀ t ∈ c.threads, t.held = [] := by
  have fin : Finished c := Classical.byContradiction fun hn => by
    obtain ⟨i, c', h1⟩ := C83_no_deadlock h hn
    rw [hs i] at h1
    cases h1
  refine ⟨?_, fun t ht => ?_⟩
  · have h1 : c.threads.map ownCalls = calls := by
      refine run_inv (P := fun c => c.threads.map ownCalls = calls) (fun _ _ _ hp hst => (ownCalls_step hst).trans hp) h ?_
      simp only [start, List.map_map]
      conv => rhs; rw [← List.map_id calls]
      exact List.map_congr_left fun cs _ => by simp [ownCalls]
    rw [← h1]
    exact List.map_congr_left fun t ht => by simp [ownCalls, (fin t ht).1, (fin t ht).2]
  · have := run_ok h t ht
    unfold Thread.Ok at this
    rw [(fin t ht).1] at this
    exact this

/-- C83. A write lock is held by one goroutine, and by no reader beside it. -/
theorem C83_exclusive {is : List Nat} (h : (start w calls).run is = some c) {i j : Nat} (hij : i ≠ j) {t u : Thread}
    (ht : c.threads[i]? = some t) (hu : c.threads[j]? = some u) {l : Lock} (hl : (l, true) ∈ t.held) (b : Bool) : (l, b) ∉ u.held := by
  have e : Excl c := run_inv (P := Excl) (fun _ _ _ hp hs => excl_step hs hp) h excl_start
  intro hb
  cases b with
  | true => exact e.one i j t u l hij ht hu (.inl hl) (.inl hb)
  | false => exact e.alone i j t u l hij ht hu hl hb

/-! ## C84 -/

end Conf

/-- The location the next step of a program reads (`false`) or changes (`true`). -/
def Prog.access : Prog → Option (Loc × Bool)
  | read x _ => some (x, false)
  | upd x _ _ => some (x, true)
  | bfs _ .pop (x :: _) V _ _ => if x ∈ V then none else some (.roles, false)
  | bfs names (.emit _ a) _ _ _ _ => some (if names then .roleName a else .perms a, false)
  | bfs _ (.push _) _ _ _ _ => some (.edges, false)
  | dfs (x :: _) V _ => if x ∈ V then none else some (.edges, false)
  | _ => none

/-- The next step of the goroutine accesses `x`. -/
def Thread.Accesses (t : Thread) (x : Loc) (b : Bool) : Prop := ∃ call p, t.cur = some (call, p) ∧ p.access = some (x, b)

namespace Conf

/-- Data race: two goroutines access the same location at the same time, one of them changes it. -/
def Race (c : Conf) (x : Loc) : Prop := ∃ (i j : Nat) (t u : Thread) (b : Bool), i ≠ j ∧ c.threads[i]? = some t ∧ c.threads[j]? = some u ∧
  t.Accesses x true ∧ u.Accesses x b

/-- C84 as intended: no data races. -/
def C84_full : Prop := ∀ w calls is c x, (start w calls).run is = some c → ¬ Race c x

end Conf

/-- The lock meant to protect a location. -/
def Loc.guard : Loc → Lock
  | .roles | .edges | .resolved => .dag
  | .roleName a | .perms a => .role a
  | .tenants | .parents | .defTenant | .userRoles | .index | .assigned _ | .expiry _ => .auth
  | .tenantId c | .namespaces c | .defNs c | .status c | .children c => .tenant c

/-- The calls that access a location without its lock. -/
def LCall.Careless (x : Loc) : LCall → Prop
  | getRole _ => x = .roles
  | resolve names _ => names = false ∧ ∃ a, x = .perms a
  | addTenant c => x = .children c
  | setDefaultTenant _ => x = .defTenant
  | removePrincipalRole _ => x = .userRoles ∨ x = .index
  | setExpiry i _ => x = .expiry i
  | judge acts => (x.peekable = true ∧ Act.peek x ∈ acts) ∨ ((∃ a, x = .perms a) ∧ ∃ r, Act.resolve false r ∈ acts)
  | _ => False

/-- Locations that no call changes: the constructors set them (`status`: nobody, v2/entities.go:66-85). -/
def Loc.Fixed : Loc → Prop
  | .roleName _ | .tenantId _ | .status _ | .assigned _ => True
  | _ => False

namespace Prog

/-- The program, started with the locks `h`, reads `x` only when `rd` holds of its locks and changes it only when `wr` does. -/
def Obeys (x : Loc) (rd wr : List (Lock × Bool) → Prop) : List (Lock × Bool) → Prog → Prop
  | _, done _ => True
  | h, lock l w k => Obeys x rd wr ((l, w) :: h) k
  | h, unlock l w k => Obeys x rd wr (h.erase (l, w)) k
  | h, read y k => (y = x → rd h) ∧ ∀ v, Obeys x rd wr h (k v)
  | h, upd y _ k => (y = x → wr h) ∧ Obeys x rd wr h k
  | h, bfs names _ _ _ _ k => ((x = .roles ∨ x = .edges ∨ ∃ a, x = if names then .roleName a else .perms a) → rd h) ∧
      ∀ s, Obeys x rd wr h (k s)
  | h, dfs _ _ k => (x = .edges → rd h) ∧ ∀ b, Obeys x rd wr h (k b)

variable {x : Loc} {rd wr : List (Lock × Bool) → Prop} {h : List (Lock × Bool)}

theorem obeys_access {p : Prog} {b : Bool} (hp : p.Obeys x rd wr h) (ha : p.access = some (x, b)) : if b then wr h else rd h := by
  cases p with
  | done r => cases ha
  | lock l w k => cases ha
  | unlock l w k => cases ha
  | read y k => cases ha; exact hp.1 rfl
  | upd y f k => cases ha; exact hp.1 rfl
  | bfs names a q V res k =>
    cases a with
    | pop =>
      cases q with
      | nil => cases ha
      | cons y q =>
        simp only [access] at ha
        split at ha <;> cases ha
        exact hp.1 (.inl rfl)
    | emit y a => cases ha; exact hp.1 (.inr (.inr ⟨a, rfl⟩))
    | push y => cases ha; exact hp.1 (.inr (.inl rfl))
  | dfs q V k =>
    cases q with
    | nil => cases ha
    | cons y q =>
      simp only [access] at ha
      split at ha <;> cases ha
      exact hp.1 rfl

theorem obeys_step {c : Conf} {w : Bool} {p : Prog} {m : V2} {b : Bool} {h' : List (Lock × Bool)} {k : Prog}
    (hs : c.stepProg w h p = some (m, b, h', k)) (hp : p.Obeys x rd wr h) : k.Obeys x rd wr h' := by
  cases p with
  | done r => cases hs
  | lock l w p =>
    cases w <;> simp only [Conf.stepProg] at hs
    · split at hs <;> cases hs
      exact hp
    · split at hs <;> split at hs <;> cases hs
      · exact hp
      · exact hp
  | unlock l w p =>
    simp only [Conf.stepProg] at hs
    split at hs <;> cases hs
    exact hp
  | read x p => cases hs; exact hp.2 _
  | upd x f p => cases hs; exact hp.2
  | bfs names a q V res p =>
    cases a with
    | pop =>
      cases q with
      | nil => cases hs; exact hp.2 _
      | cons x q =>
        simp only [Conf.stepProg] at hs
        split at hs
        · cases hs; exact hp
        · split at hs <;> cases hs <;> exact hp
    | emit x a => cases hs; exact hp
    | push x => cases hs; exact hp
  | dfs q V p =>
    cases q with
    | nil => cases hs; exact hp.2 _
    | cons x q =>
      simp only [Conf.stepProg] at hs
      split at hs <;> cases hs
      · exact hp.2 _
      · exact hp

end Prog

namespace LCall
open Prog
variable {x : Loc} {rd wr : List (Lock × Bool) → Prop} {h : List (Lock × Bool)}

theorem obeys_foldr {α : Type} {f : α → Prog → Prog} {as : List α} {k : Prog}
    (hf : ∀ a k, Obeys x rd wr h k → Obeys x rd wr h (f a k)) (hk : Obeys x rd wr h k) : Obeys x rd wr h (as.foldr f k) := by
  induction as with
  | nil => exact hk
  | cons a as ih => exact hf a _ ih

theorem obeys_updAll {α : Type} {y : Loc} {f : α → Cell y → Cell y} {as : List α} {k : Prog} (hw : y = x → wr h)
    (hk : Obeys x rd wr h k) : Obeys x rd wr h (updAll y f as k) :=
  obeys_foldr (fun _ _ hk => ⟨hw, hk⟩) hk

theorem obeys_locked {l : Lock} {body : (Option (List Str) → Prog) → Prog}
    (hb : ∀ k : Option (List Str) → Prog, (∀ r, Obeys x rd wr [(l, true)] (k r)) → Obeys x rd wr [(l, true)] (body k)) :
    Obeys x rd wr [] (locked l body) := hb _ fun _ => trivial

theorem obeys_resolveK {names : Bool} {r : Str} {k : List Str → Prog} (hk : ∀ s, Obeys x rd wr [] (k s))
    (h1 : x = .resolved → rd [(.dag, false)] ∧ wr [(.dag, true)])
    (h2 : (x = .roles ∨ x = .edges ∨ ∃ a, x = if names then .roleName a else .perms a) → rd [(.dag, true)]) :
    Obeys x rd wr [] (resolveK names r k) := by
  refine ⟨fun e => (h1 e.symm).1, fun m => ?_⟩
  simp only
  split
  · exact (by simpa [Obeys] using hk _)
  · exact (by simpa [Obeys] using ⟨h2, fun s => ⟨fun e => (h1 e.symm).2, hk s⟩⟩)

theorem obeys_readPRs {l : List (Option Nat)} {k : List (Option Nat × PR) → Prog} (hr : ∀ i, x = .assigned i → rd h)
    (hk : ∀ us, Obeys x rd wr h (k us)) : Obeys x rd wr h (readPRs l k) := by
  induction l generalizing k with
  | nil => exact hk _
  | cons y l ih =>
    cases y with
    | none => exact ih fun _ => hk _
    | some i => exact ⟨fun e => hr i e.symm, fun _ => ih fun _ => hk _⟩

theorem obeys_addPRs {is : List Nat} {k : Prog} (h1 : x = .userRoles → wr h) (h2 : x = .index → wr h) (h3 : ∀ i, x = .assigned i → rd h)
    (hk : Obeys x rd wr h k) : Obeys x rd wr h (addPRs is k) := by
  induction is with
  | nil => exact hk
  | cons i is ih => exact ⟨fun e => h1 e.symm, fun e => h3 i e.symm, fun _ => ⟨fun e => h2 e.symm, ih⟩⟩

/-- The lock of `x` is held. -/
def Rd (x : Loc) (h : List (Lock × Bool)) : Prop := ∃ w, (x.guard, w) ∈ h

/-- The lock of `x` is write-locked. -/
def Wr (x : Loc) (h : List (Lock × Bool)) : Prop := (x.guard, true) ∈ h

theorem obeys_judgeK (hx : ¬ x.Fixed) {acts : List Act} (hc : ¬ Careless x (.judge acts)) : Obeys x (Rd x) (Wr x) [] (judgeK acts) := by
  induction acts with
  | nil => trivial
  | cons a acts ih =>
    have hc' : ¬ Careless x (.judge acts) := fun h => hc <| by
      rcases h with ⟨h1, h2⟩ | ⟨h1, r, h2⟩
      · exact .inl ⟨h1, List.mem_cons_of_mem _ h2⟩
      · exact .inr ⟨h1, r, List.mem_cons_of_mem _ h2⟩
    have ih := ih hc'
    cases a with
    | peek y =>
      unfold judgeK
      split
      · rename_i hy
        refine ⟨fun e => ?_, fun _ => ih⟩
        subst e
        exact absurd (.inl ⟨hy, List.mem_cons_self⟩) hc
      · exact ih
    | resolve names r =>
      refine obeys_resolveK (fun _ => ih) (fun e => ?_) fun e => ?_
      · subst e; exact ⟨⟨false, by simp [Loc.guard]⟩, by simp [Wr, Loc.guard]⟩
      · rcases e with rfl | rfl | ⟨a, rfl⟩
        · exact ⟨true, by simp [Loc.guard]⟩
        · exact ⟨true, by simp [Loc.guard]⟩
        · cases names
          · exact absurd (.inr ⟨⟨a, rfl⟩, r, List.mem_cons_self⟩) hc
          · exact absurd trivial hx
    | getTenant =>
      refine ⟨fun e => ?_, fun _ => by simpa [Obeys] using ih⟩
      subst e
      exact ⟨true, by simp [Loc.guard]⟩

/-- A call that is not careless with `x` accesses it under its lock. -/
theorem obeys_prog (hx : ¬ x.Fixed) {call : LCall} (hc : ¬ call.Careless x) : Obeys x (Rd x) (Wr x) [] call.prog := by
  cases call with
  | addPermission a ps =>
    unfold prog
    refine obeys_locked fun k hk => obeys_updAll (fun e => ?_) (hk _)
    subst e; simp [Wr, Loc.guard]
  | removePermission a ps =>
    unfold prog
    refine obeys_locked fun k hk => obeys_updAll (fun e => ?_) (hk _)
    subst e; simp [Wr, Loc.guard]
  | addNamespace c n d =>
    unfold prog
    refine obeys_locked ?_
    intro k hk
    have hw : Loc.namespaces c = x → Rd x [(.tenant c, true)] ∧ Wr x [(.tenant c, true)] := fun e => by
      subst e; exact ⟨⟨true, by simp [Loc.guard]⟩, by simp [Wr, Loc.guard]⟩
    have ht : Obeys x (Rd x) (Wr x) [(.tenant c, true)] (if d = true then Prog.upd (.defNs c) (fun _ => n) (k none) else k none) := by
      split
      · exact ⟨fun e => by subst e; simp [Wr, Loc.guard], hk _⟩
      · exact hk _
    refine ⟨fun e => (hw e).1, fun m => ?_⟩
    simp only
    split
    · exact ht
    · exact ⟨fun e => (hw e).2, ht⟩
  | addScopes c n scs =>
    unfold prog
    refine obeys_locked ?_
    intro k hk
    have hw : Loc.namespaces c = x → Rd x [(.tenant c, true)] ∧ Wr x [(.tenant c, true)] := fun e => by
      subst e; exact ⟨⟨true, by simp [Loc.guard]⟩, by simp [Wr, Loc.guard]⟩
    refine ⟨fun e => (hw e).1, fun m => ?_⟩
    simp only
    split
    · exact hk _
    · exact obeys_updAll (fun e => (hw e).2) (hk _)
  | addChildTenant c ds =>
    unfold prog
    refine obeys_locked ?_
    intro k hk
    refine obeys_foldr ?_ (hk _)
    exact fun d k h => ⟨fun e => by subst e; exact absurd trivial hx, fun _ => ⟨fun e => by subst e; simp [Wr, Loc.guard], h⟩⟩
  | addRoles as =>
    unfold prog
    refine obeys_locked ?_
    intro k hk
    refine obeys_foldr ?_ (hk _)
    exact fun d k h => ⟨fun e => by subst e; exact absurd trivial hx, fun _ => ⟨fun e => by subst e; simp [Wr, Loc.guard], h⟩⟩
  | addChildRole p cs =>
    unfold prog
    refine obeys_locked ?_
    intro k hk
    refine ⟨fun e => by subst e; exact ⟨true, by simp [Loc.guard]⟩, fun b => ?_⟩
    simp only
    split
    · exact hk _
    · exact ⟨fun e => by subst e; simp [Wr, Loc.guard], hk _⟩
  | resolve names r =>
    unfold prog
    refine obeys_resolveK (fun _ => trivial) (fun e => ?_) fun e => ?_
    · subst e; exact ⟨⟨false, by simp [Loc.guard]⟩, by simp [Wr, Loc.guard]⟩
    · rcases e with rfl | rfl | ⟨a, rfl⟩
      · exact ⟨true, by simp [Loc.guard]⟩
      · exact ⟨true, by simp [Loc.guard]⟩
      · cases names
        · exact absurd ⟨rfl, a, rfl⟩ hc
        · exact absurd trivial hx
  | getRole r => exact ⟨fun e => absurd e.symm hc, fun _ => trivial⟩
  | addTenant c =>
    unfold prog
    refine obeys_locked ?_
    intro k hk
    refine ⟨fun e => by subst e; exact absurd trivial hx, fun _ => ⟨fun e => by subst e; simp [Wr, Loc.guard],
      fun e => absurd e.symm hc, fun _ => ?_⟩⟩
    refine obeys_foldr ?_ (hk _)
    exact fun d k h => ⟨fun e => by subst e; exact absurd trivial hx, fun _ => ⟨fun e => by subst e; simp [Wr, Loc.guard], h⟩⟩
  | getTenant id =>
    unfold prog
    refine obeys_locked ?_
    exact fun k hk => ⟨fun e => by subst e; exact ⟨true, by simp [Loc.guard]⟩, fun _ => hk _⟩
  | setDefaultTenant id => exact ⟨fun e => absurd e.symm hc, trivial⟩
  | addPrincipalRole is =>
    unfold prog
    refine obeys_locked fun k hk => obeys_addPRs (fun e => ?_) (fun e => ?_) (fun i e => ?_) (hk _)
    · subst e; simp [Wr, Loc.guard]
    · subst e; simp [Wr, Loc.guard]
    · subst e; exact absurd trivial hx
  | removePrincipalRole target =>
    refine ⟨fun e => absurd (.inl e.symm) hc, fun l => obeys_readPRs (fun i e => ?_) fun us => ?_⟩
    · subst e; exact absurd trivial hx
    · split
      · refine ⟨fun e => absurd (.inl e.symm) hc, fun e => absurd (.inr e.symm) hc, fun m => ?_⟩
        refine obeys_readPRs (fun i e => ?_) fun vs => ⟨fun e => absurd (.inr e.symm) hc, trivial⟩
        subst e; exact absurd trivial hx
      · trivial
  | setExpiry i e => exact ⟨fun e => absurd e.symm hc, trivial⟩
  | judge acts => exact obeys_judgeK hx hc

theorem fixed_judgeK (hx : x.Fixed) (acts : List Act) : Obeys x (fun _ => True) (fun _ => False) [] (judgeK acts) := by
  induction acts with
  | nil => trivial
  | cons a acts ih =>
    cases a with
    | peek y =>
      unfold judgeK
      split
      · exact ⟨fun _ => trivial, fun _ => ih⟩
      · exact ih
    | resolve names r => exact obeys_resolveK (fun _ => ih) (fun e => by subst e; exact hx.elim) fun _ => trivial
    | getTenant => exact ⟨fun _ => trivial, fun _ => by simpa [Obeys] using ih⟩

/-- No call changes what the constructors set. -/
theorem fixed_prog (hx : x.Fixed) (call : LCall) : Obeys x (fun _ => True) (fun _ => False) [] call.prog := by
  cases call with
  | addPermission a ps =>
    unfold prog
    exact obeys_locked fun k hk => obeys_updAll (fun e => by subst e; exact hx) (hk _)
  | removePermission a ps =>
    unfold prog
    exact obeys_locked fun k hk => obeys_updAll (fun e => by subst e; exact hx) (hk _)
  | addNamespace c n d =>
    unfold prog
    refine obeys_locked ?_
    intro k hk
    have ht : Obeys x (fun _ => True) (fun _ => False) [(.tenant c, true)] (if d = true then Prog.upd (.defNs c) (fun _ => n) (k none) else k none) := by
      split
      · exact ⟨fun e => by subst e; exact hx, hk _⟩
      · exact hk _
    refine ⟨fun _ => trivial, fun m => ?_⟩
    simp only
    split
    · exact ht
    · exact ⟨fun e => by subst e; exact hx, ht⟩
  | addScopes c n scs =>
    unfold prog
    refine obeys_locked ?_
    intro k hk
    refine ⟨fun _ => trivial, fun m => ?_⟩
    simp only
    split
    · exact hk _
    · exact obeys_updAll (fun e => by subst e; exact hx) (hk _)
  | addChildTenant c ds =>
    unfold prog
    refine obeys_locked ?_
    intro k hk
    refine obeys_foldr ?_ (hk _)
    exact fun d k h => ⟨fun _ => trivial, fun _ => ⟨fun e => by subst e; exact hx, h⟩⟩
  | addRoles as =>
    unfold prog
    refine obeys_locked ?_
    intro k hk
    refine obeys_foldr ?_ (hk _)
    exact fun d k h => ⟨fun _ => trivial, fun _ => ⟨fun e => by subst e; exact hx, h⟩⟩
  | addChildRole p cs =>
    unfold prog
    refine obeys_locked ?_
    intro k hk
    refine ⟨fun _ => trivial, fun b => ?_⟩
    simp only
    split
    · exact hk _
    · exact ⟨fun e => by subst e; exact hx, hk _⟩
  | resolve names r =>
    unfold prog
    exact obeys_resolveK (fun _ => trivial) (fun e => by subst e; exact hx.elim) fun _ => trivial
  | getRole r => exact ⟨fun _ => trivial, fun _ => trivial⟩
  | addTenant c =>
    unfold prog
    refine obeys_locked ?_
    intro k hk
    refine ⟨fun _ => trivial, fun _ => ⟨fun e => by subst e; exact hx, fun _ => trivial, fun _ => ?_⟩⟩
    refine obeys_foldr ?_ (hk _)
    exact fun d k h => ⟨fun _ => trivial, fun _ => ⟨fun e => by subst e; exact hx, h⟩⟩
  | getTenant id =>
    unfold prog
    refine obeys_locked ?_
    exact fun k hk => ⟨fun _ => trivial, fun _ => hk _⟩
  | setDefaultTenant id => exact ⟨fun e => by subst e; exact hx, trivial⟩
  | addPrincipalRole is =>
    unfold prog
    refine obeys_locked fun k hk => obeys_addPRs (fun e => ?_) (fun e => ?_) (fun i e => trivial) (hk _)
    · subst e; exact hx
    · subst e; exact hx
  | removePrincipalRole target =>
    refine ⟨fun _ => trivial, fun l => obeys_readPRs (fun i e => trivial) fun us => ?_⟩
    split
    · exact ⟨fun e => by subst e; exact hx, fun _ => trivial, fun m =>
        obeys_readPRs (fun i e => trivial) fun vs => ⟨fun e => by subst e; exact hx, trivial⟩⟩
    · trivial
  | setExpiry i e => exact ⟨fun e => by subst e; exact hx, trivial⟩
  | judge acts => exact fixed_judgeK hx acts

end LCall

namespace Conf
variable {c c' : Conf} {w : V2} {calls : List (List LCall)}
open LCall

/-- All programs obey, now and later. -/
def AllObey (x : Loc) (rd wr : List (Lock × Bool) → Prop) (c : Conf) : Prop := ∀ t ∈ c.threads,
  (∀ call ∈ t.todo, call.prog.Obeys x rd wr []) ∧
  match t.cur with
  | none => t.held = []
  | some (_, p) => p.Obeys x rd wr t.held

theorem allObey_step {x : Loc} {rd wr : List (Lock × Bool) → Prop} {i : Nat} (h : c.step i = some c') (ok : ∀ t ∈ c.threads, t.Ok)
    (ho : AllObey x rd wr c) : AllObey x rd wr c' := by
  obtain ⟨t, ht, mv⟩ := step_eq h
  have hm := List.mem_of_getElem? ht
  obtain ⟨h1, h2⟩ := ho t hm
  cases mv with
  | call h3 h4 =>
    rw [h3] at h2
    have h2 : t.held = [] := h2
    refine threads_set ho ⟨fun call hc => h1 call (by rw [h4]; exact List.mem_cons_of_mem _ hc), ?_⟩
    simp only [h2]
    exact h1 _ (by rw [h4]; exact List.mem_cons_self)
  | ret h3 =>
    have hok := ok t hm
    unfold Thread.Ok at hok
    rw [h3] at hok
    exact threads_set ho ⟨h1, hok⟩
  | prog h3 h4 =>
    rw [h3] at h2
    exact threads_set ho ⟨h1, Prog.obeys_step h4 h2⟩

theorem allObey_run {x : Loc} {rd wr : List (Lock × Bool) → Prop} {is : List Nat} (h : (start w calls).run is = some c)
    (hc : ∀ cs ∈ calls, ∀ call ∈ cs, call.prog.Obeys x rd wr []) : AllObey x rd wr c := by
  refine (run_inv (P := fun c => (∀ t ∈ c.threads, t.Ok) ∧ AllObey x rd wr c)
    (fun _ _ _ hp hs => ⟨step_ok hs hp.1, allObey_step hs hp.1 hp.2⟩) h ⟨start_ok, fun t ht => ?_⟩).2
  obtain ⟨cs, hcs, rfl⟩ := List.mem_map.1 ht
  exact ⟨fun call hm => hc cs hcs call hm, rfl⟩

/-- C84. A location is free of races if every call that runs takes its lock (those that do not are listed in
`LCall.Careless`). -/
theorem C84_guarded_partial {x : Loc} (hx : ¬ x.Fixed) (hc : ∀ cs ∈ calls, ∀ call ∈ cs, ¬ call.Careless x) {is : List Nat}
    (h : (start w calls).run is = some c) : ¬ Race c x := by
  rintro ⟨i, j, t, u, b, hij, ht, hu, ⟨call, p, h1, h2⟩, ⟨call', q, h3, h4⟩⟩
  have ho := allObey_run h fun cs hcs call hm => obeys_prog hx (hc cs hcs call hm)
  have g1 := (ho t (List.mem_of_getElem? ht)).2
  have g2 := (ho u (List.mem_of_getElem? hu)).2
  rw [h1] at g1
  rw [h3] at g2
  have k1 : (x.guard, true) ∈ t.held := Prog.obeys_access g1 h2
  have k2 := Prog.obeys_access g2 h4
  cases b with
  | true => exact C83_exclusive h hij ht hu k1 _ k2
  | false =>
    obtain ⟨b, k2⟩ := k2
    exact C83_exclusive h hij ht hu k1 _ k2

/-- C84. The child links, the resolution cache and the parent cache are free of races, whatever calls run. -/
theorem C84_always_partial {is : List Nat} (h : (start w calls).run is = some c) :
    ¬ Race c .edges ∧ ¬ Race c .resolved ∧ ¬ Race c .parents := by
  refine ⟨C84_guarded_partial (fun h => h) (fun cs _ call _ hc => ?_) h, C84_guarded_partial (fun h => h) (fun cs _ call _ hc => ?_) h,
    C84_guarded_partial (fun h => h) (fun cs _ call _ hc => ?_) h⟩ <;>
  · cases call <;> simp [LCall.Careless, Loc.peekable] at hc

/-- C84. What the constructors set is free of races, whatever calls run. -/
theorem C84_fixed_partial {x : Loc} (hx : x.Fixed) {is : List Nat} (h : (start w calls).run is = some c) : ¬ Race c x := by
  rintro ⟨i, j, t, u, b, hij, ht, hu, ⟨call, p, h1, h2⟩, _⟩
  have g1 := (allObey_run h (fun cs hcs call hm => fixed_prog hx call) t (List.mem_of_getElem? ht)).2
  rw [h1] at g1
  exact Prog.obeys_access g1 h2

/-! ### Examples -/

/-- What goroutine `i` accesses next. -/
def next (c : Conf) (i : Nat) : Option (Loc × Bool) := (c.threads[i]?.bind (·.cur)).bind (·.2.access)

theorem next_eq {i : Nat} {x : Loc} {b : Bool} (h : next c i = some (x, b)) : ∃ t, c.threads[i]? = some t ∧ t.Accesses x b := by
  unfold next at h
  obtain ⟨⟨call, p⟩, h1, h2⟩ := Option.bind_eq_some_iff.1 h
  obtain ⟨t, h3, h4⟩ := Option.bind_eq_some_iff.1 h1
  exact ⟨t, h3, call, p, h4, h2⟩

/-- Both goroutines of the schedule are about to access `x`, the first one to change it. -/
def clash (w : V2) (calls : List (List LCall)) (is : List Nat) (x : Loc) : Bool :=
  match (start w calls).run is with
  | none => false
  | some c => next c 0 == some (x, true) && (next c 1 == some (x, true) || next c 1 == some (x, false))

theorem race_of_clash {is : List Nat} {x : Loc} (h : clash w calls is x = true) : ∃ c, (start w calls).run is = some c ∧ Race c x := by
  unfold clash at h
  split at h
  · cases h
  · rename_i c hc
    simp only [Bool.and_eq_true, Bool.or_eq_true, beq_iff_eq] at h
    obtain ⟨h1, h2⟩ := h
    obtain ⟨t, g1, g2⟩ := next_eq h1
    rcases h2 with h2 | h2 <;>
    · obtain ⟨u, g3, g4⟩ := next_eq h2
      exact ⟨c, hc, 0, 1, t, u, _, by decide, g1, g3, g2, g4⟩

/-- A role, two tenants and an assignment; the role is registered. -/
def exShared : V2 where
  dag := { objs := [{ name := str "r", perms := [str "x read"] }], roles := [(str "r", 0)] }
  tobjs := [{ id := str "t", namespaces := [(str "n", [])], defNs := str "n" }, { id := str "u" }]
  tenants := [(str "t", 0)]
  prs := [{ principal := str "p", tenant := str "t", role := str "r" }]
  userRoles := [some 0]
  index := [(str "p", [(str "t", [0])])]

/-- C84. `AddRole` and `GetRole` race on the role map (v2/init.go:13). -/
theorem C84_getRole_races : ∃ c, (start exShared [[.addRoles [0]], [.getRole (str "r")]]).run [0, 0, 0, 0, 1] = some c ∧ Race c .roles :=
  race_of_clash (by decide +kernel)

/-- C84. `AddPermission` and `ResolvePermissions` race on the permissions of a role (v2/role.go:141): each holds its own lock. -/
theorem C84_permissions_race : ∃ c, (start exShared [[.addPermission 0 [⟨str "y", str "read", []⟩]], [.resolve false (str "r")]]).run
    [0, 0, 0, 1, 1, 1, 1, 1, 1, 1] = some c ∧ Race c (.perms 0) :=
  race_of_clash (by decide +kernel)

/-- C84. `Authorize` reads the assignments, the tenants, their namespaces and child tenants without the locks the
writers take, and `AddTenant` reads the child tenants so; `RemovePrincipalRole`, `SetDefaultTenant` and `SetExpiry` write without a lock. -/
theorem C84_decisions_race :
    (∃ is c, (start exShared [[.addPrincipalRole [0]], [.judge [.peek .userRoles]]]).run is = some c ∧ Race c .userRoles) ∧
    (∃ is c, (start exShared [[.addTenant 1], [.judge [.peek .tenants]]]).run is = some c ∧ Race c .tenants) ∧
    (∃ is c, (start exShared [[.addScopes 0 (str "n") [str "s"]], [.judge [.peek (.namespaces 0)]]]).run is = some c ∧ Race c (.namespaces 0)) ∧
    (∃ is c, (start exShared [[.addChildTenant 0 [1]], [.judge [.peek (.children 0)]]]).run is = some c ∧ Race c (.children 0)) ∧
    (∃ is c, (start exShared [[.addChildTenant 0 [1]], [.addTenant 0]]).run is = some c ∧ Race c (.children 0)) ∧
    (∃ is c, (start exShared [[.removePrincipalRole {}], [.removePrincipalRole {}]]).run is = some c ∧ Race c .userRoles) ∧
    (∃ is c, (start exShared [[.addPrincipalRole [0]], [.removePrincipalRole {}]]).run is = some c ∧ Race c .index) ∧
    (∃ is c, (start exShared [[.setDefaultTenant (str "t")], [.judge [.peek .defTenant]]]).run is = some c ∧ Race c .defTenant) ∧
    (∃ is c, (start exShared [[.setExpiry 0 none], [.judge [.peek (.expiry 0)]]]).run is = some c ∧ Race c (.expiry 0)) :=
  ⟨⟨[0, 0, 0, 1], race_of_clash (by decide +kernel)⟩, ⟨[0, 0, 0, 0, 1], race_of_clash (by decide +kernel)⟩,
   ⟨[0, 0, 0, 0, 1], race_of_clash (by decide +kernel)⟩, ⟨[0, 0, 0, 0, 1], race_of_clash (by decide +kernel)⟩,
   ⟨[0, 0, 0, 0, 1, 1, 1, 1, 1], race_of_clash (by decide +kernel)⟩, ⟨[0, 0, 0, 1, 1, 1], race_of_clash (by decide +kernel)⟩,
   ⟨[0, 0, 0, 1, 1, 1, 1, 0, 0], race_of_clash (by decide +kernel)⟩, ⟨[0, 1], race_of_clash (by decide +kernel)⟩,
   ⟨[0, 1], race_of_clash (by decide +kernel)⟩⟩

/-- C84. So the intended property fails. -/
theorem C84_full_false : ¬ C84_full := fun h => by
  obtain ⟨c, h1, h2⟩ := C84_getRole_races
  exact h _ _ _ _ _ h1 h2

/-- C84. Calls that are careful with the role map: they run at the same time, without races on it. -/
example {is : List Nat} (h : (start exShared [[.addRoles [0], .addChildRole (str "r") [str "q"]], [.resolve false (str "r")],
    [.judge [.peek .tenants, .resolve true (str "r")]]]).run is = some c) : ¬ Race c .roles :=
  C84_guarded_partial (fun h => h) (by simp [LCall.Careless]) h

set_option synthInstance.maxSize 1000 in
/-- C83. A goroutine that has to wait: `ResolvePermissions` cannot start while `AddRole` holds the lock, nor can a
second writer; when it is released all calls finish. -/
example :
    (((start exShared [[.addRoles [0]], [.resolve false (str "r")], [.addChildRole (str "r") [str "q"]]]).run [0, 0, 0, 1, 2]).map fun c => ((c.step 1).isNone, (c.step 2).isNone, (c.step 0).isSome)) = some (true, true, true) ∧
    (((start exShared [[.addRoles [0]], [.resolve false (str "r")], [.addChildRole (str "r") [str "q"]]]).run ([0, 0, 0, 1, 2] ++ [0, 0, 0, 0] ++ List.replicate 7 2 ++ List.replicate 13 1)).map fun c =>
      c.threads.map fun t => (t.out.map (·.2), t.cur.isNone && t.todo.isEmpty && t.held.isEmpty)) =
      some [([none], true), ([some [str "x read"]], true), ([none], true)] := by decide +kernel

end Conf
end Verif
