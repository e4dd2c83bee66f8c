import Verif.Props.V2Locks
import Verif.Lemmas.V2Conc
import Verif.Lemmas.V2Ops

/-!
# Lemmas on calls with one critical section (package v2)

A goroutine that holds a lock sees the locations of that lock as if it ran alone.
-/

namespace Verif

/-! ## Memory as a family of locations -/

/-- The same objects exist, and the same has been logged. -/
structure SameShape (m n : V2) : Prop where
  objs : m.dag.objs.length = n.dag.objs.length
  tobjs : m.tobjs.length = n.tobjs.length
  prs : m.prs.length = n.prs.length
  logger : m.logger = n.logger
  log : m.log = n.log

theorem SameShape.refl (m : V2) : SameShape m m := ⟨rfl, rfl, rfl, rfl, rfl⟩
theorem SameShape.symm {m n : V2} (h : SameShape m n) : SameShape n m := ⟨h.1.symm, h.2.symm, h.3.symm, h.4.symm, h.5.symm⟩
theorem SameShape.trans {m n o : V2} (h : SameShape m n) (g : SameShape n o) : SameShape m o :=
  ⟨h.1.trans g.1, h.2.trans g.2, h.3.trans g.3, h.4.trans g.4, h.5.trans g.5⟩

theorem shape_put {x : Loc} {m : V2} {f : Cell x → Cell x} : SameShape (x.put m f) m := by
  cases x <;> exact ⟨by simp [Loc.put], by simp [Loc.put], by simp [Loc.put], rfl, rfl⟩

section
variable {α β : Type} {l : List α} {f : α → α} {a b : Nat} {d : α}

theorem getD_modify_ne (h : a ≠ b) : (l.modify a f).getD b d = l.getD b d := by
  rw [List.getD_eq_getElem?_getD, List.getD_eq_getElem?_getD, List.getElem?_modify]
  simp [h]

theorem getD_modify : (l.modify a f).getD a d = if a < l.length then f (l.getD a d) else d := by
  rw [List.getD_eq_getElem?_getD, List.getD_eq_getElem?_getD, List.getElem?_modify]
  by_cases h : a < l.length
  · rw [if_pos h, List.getElem?_eq_getElem h]; simp
  · rw [if_neg h, List.getElem?_eq_none (Nat.le_of_not_lt h)]; rfl

theorem getD_modify_proj (g : α → β) (h : ∀ r, g (f r) = g r) : g ((l.modify a f).getD b d) = g (l.getD b d) := by
  by_cases e : a = b
  · subst e
    rw [getD_modify]
    split
    · exact h _
    · rename_i hn; rw [List.getD_eq_getElem?_getD, List.getElem?_eq_none (Nat.le_of_not_lt hn)]; rfl
  · rw [getD_modify_ne e]

end

theorem get_put_ne {x y : Loc} (h : x ≠ y) {m : V2} {f : Cell x → Cell x} : y.get (x.put m f) = y.get m := by
  cases x <;> cases y <;> first
    | rfl
    | exact absurd rfl h
    | exact getD_modify_proj (fun r : R2 => r.name) (fun _ => rfl)
    | exact getD_modify_proj (fun r : R2 => r.perms) (fun _ => rfl)
    | exact getD_modify_proj (fun r : T2 => r.id) (fun _ => rfl)
    | exact getD_modify_proj (fun r : T2 => r.namespaces) (fun _ => rfl)
    | exact getD_modify_proj (fun r : T2 => r.defNs) (fun _ => rfl)
    | exact getD_modify_proj (fun r : T2 => r.status) (fun _ => rfl)
    | exact getD_modify_proj (fun r : T2 => r.children) (fun _ => rfl)
    | (refine getD_modify_proj (fun u : PR => ({ u with expiry := none } : PR)) ?_; intro r; rfl)
    | exact getD_modify_proj (fun u : PR => u.expiry) (fun _ => rfl)
    | exact congrArg (fun r : R2 => r.name) (getD_modify_ne (fun e => h (congrArg _ e)))
    | exact congrArg (fun r : R2 => r.perms) (getD_modify_ne (fun e => h (congrArg _ e)))
    | exact congrArg (fun r : T2 => r.id) (getD_modify_ne (fun e => h (congrArg _ e)))
    | exact congrArg (fun r : T2 => r.namespaces) (getD_modify_ne (fun e => h (congrArg _ e)))
    | exact congrArg (fun r : T2 => r.defNs) (getD_modify_ne (fun e => h (congrArg _ e)))
    | exact congrArg (fun r : T2 => r.status) (getD_modify_ne (fun e => h (congrArg _ e)))
    | exact congrArg (fun r : T2 => r.children) (getD_modify_ne (fun e => h (congrArg _ e)))
    | exact congrArg (fun u : PR => { u with expiry := none }) (getD_modify_ne (fun e => h (congrArg _ e)))
    | exact congrArg (fun u : PR => u.expiry) (getD_modify_ne (fun e => h (congrArg _ e)))

theorem get_put_congr {x : Loc} {m n : V2} (s : SameShape m n) (h : x.get m = x.get n) {f : Cell x → Cell x} :
    x.get (x.put m f) = x.get (x.put n f) := by
  cases x with
  | roleName a | perms a =>
    simp only [Loc.get, Loc.put, V2.roleAt, getD_modify, s.objs] at h ⊢
    split
    · exact congrArg f h
    · rfl
  | tenantId a | namespaces a | defNs a | status a | children a =>
    simp only [Loc.get, Loc.put, V2.tenantAt, getD_modify, s.tobjs] at h ⊢
    split
    · exact congrArg f h
    · rfl
  | assigned a =>
    simp only [Loc.get, Loc.put, getD_modify, s.prs] at h ⊢
    split
    · exact congrArg (fun u : PR => { f u with expiry := none }) h
    · rfl
  | expiry a =>
    simp only [Loc.get, Loc.put, getD_modify, s.prs] at h ⊢
    split
    · exact congrArg f h
    · rfl
  | _ => exact congrArg f h

theorem list_ext {α : Type} {l l' : List α} (d : α) (h : l.length = l'.length) (hd : ∀ a, l.getD a d = l'.getD a d) : l = l' := by
  refine List.ext_getElem h fun a h1 h2 => ?_
  have := hd a
  rwa [List.getD_eq_getElem?_getD, List.getD_eq_getElem?_getD, List.getElem?_eq_getElem h1, List.getElem?_eq_getElem h2] at this

theorem mem_ext {m n : V2} (s : SameShape m n) (h : ∀ x : Loc, x.get m = x.get n) : m = n := by
  have h1 : m.dag.objs = n.dag.objs := list_ext { name := [] } s.objs fun a => by
    have e1 := h (.roleName a)
    have e2 := h (.perms a)
    simp only [Loc.get, V2.roleAt] at e1 e2
    generalize m.dag.objs.getD a { name := [] } = r at *
    generalize n.dag.objs.getD a { name := [] } = r' at *
    cases r; cases r'
    cases e1; cases e2; rfl
  have h2 : m.tobjs = n.tobjs := list_ext { id := [] } s.tobjs fun a => by
    have e1 := h (.tenantId a)
    have e2 := h (.namespaces a)
    have e3 := h (.defNs a)
    have e4 := h (.status a)
    have e5 := h (.children a)
    simp only [Loc.get, V2.tenantAt] at e1 e2 e3 e4 e5
    generalize m.tobjs.getD a { id := [] } = r at *
    generalize n.tobjs.getD a { id := [] } = r' at *
    cases r; cases r'
    cases e1; cases e2; cases e3; cases e4; cases e5; rfl
  have h3 : m.prs = n.prs := list_ext {} s.prs fun a => by
    have e1 := h (.assigned a)
    have e2 := h (.expiry a)
    simp only [Loc.get] at e1 e2
    generalize m.prs.getD a {} = r at *
    generalize n.prs.getD a {} = r' at *
    cases r; cases r'
    cases e1; cases e2; rfl
  have e1 := h .roles
  have e2 := h .edges
  have e3 := h .resolved
  have e4 := h .tenants
  have e5 := h .parents
  have e6 := h .defTenant
  have e7 := h .userRoles
  have e8 := h .index
  have e9 := s.logger
  have e10 := s.log
  simp only [Loc.get] at e1 e2 e3 e4 e5 e6 e7 e8
  obtain ⟨⟨o, ro, ed, re⟩, _, _, _, _, _, _, _, _, _⟩ := m
  obtain ⟨⟨o', ro', ed', re'⟩, _, _, _, _, _, _, _, _, _⟩ := n
  cases h1; cases h2; cases h3; cases e1; cases e2; cases e3; cases e4; cases e5; cases e6; cases e7; cases e8; cases e9; cases e10
  rfl

/-! ## Critical sections -/

namespace Prog

/-- One step inside a critical section. -/
def adv (m : V2) : Prog → Option (V2 × Prog)
  | read x k => some (m, k (x.get m))
  | upd x f k => some (x.put m f, k)
  | dfs [] _ k => some (m, k false)
  | dfs (x :: q) V k => if x ∈ V then some (m, k true) else some (m, .dfs (m.dag.children x ++ q) (V ++ [x]) k)
  | _ => none

/-- The rest of a critical section of `l`: it reads and changes only locations of `l`, reads also locations in `F`, which
nobody changes, and ends by unlocking and returning. -/
def Sec (F : Loc → Prop) (l : Lock) : Prog → Prop
  | done _ => False
  | lock _ _ _ => False
  | unlock l' w k => l' = l ∧ w = true ∧ ∃ r, k = done r
  | read x k => (F x ∨ x.guard = l) ∧ ∀ v, Sec F l (k v)
  | upd x _ k => ¬ F x ∧ x.guard = l ∧ Sec F l k
  | bfs _ _ _ _ _ _ => False
  | dfs _ _ k => l = .dag ∧ ∀ b, Sec F l (k b)

/-- Steps inside a critical section. -/
inductive Steps (m : V2) (p : Prog) : V2 → Prog → Prop where
  | refl : Steps m p m p
  | tail {m1 p1 m2 p2} : Steps m p m1 p1 → adv m1 p1 = some (m2, p2) → Steps m p m2 p2

end Prog

/-- The memories agree on what a critical section of `l` can see. -/
structure Agree (F : Loc → Prop) (l : Lock) (m n : V2) : Prop where
  shape : SameShape m n
  get : ∀ x : Loc, F x ∨ x.guard = l → x.get m = x.get n

namespace Prog
variable {F : Loc → Prop} {l : Lock} {p p' : Prog} {m m' n : V2}

theorem sec_adv (h : p.Sec F l) (ha : p.adv m = some (m', p')) :
    p'.Sec F l ∧ SameShape m' m ∧ ∀ x : Loc, F x ∨ x.guard ≠ l → x.get m' = x.get m := by
  cases p with
  | read x k => cases ha; exact ⟨h.2 _, .refl _, fun _ _ => rfl⟩
  | upd x f k =>
    cases ha
    refine ⟨h.2.2, shape_put, fun y hy => get_put_ne fun e => ?_⟩
    subst e
    rcases hy with hy | hy
    · exact h.1 hy
    · exact hy h.2.1
  | dfs q V k =>
    cases q with
    | nil => cases ha; exact ⟨h.2 _, .refl _, fun _ _ => rfl⟩
    | cons x q =>
      simp only [adv] at ha
      split at ha
      · cases ha; exact ⟨h.2 _, .refl _, fun _ _ => rfl⟩
      · cases ha; exact ⟨h, .refl _, fun _ _ => rfl⟩
  | _ => cases ha

theorem adv_agree (h : p.Sec F l) (ha : p.adv m = some (m', p')) (g : Agree F l m n) :
    ∃ n', p.adv n = some (n', p') ∧ Agree F l m' n' := by
  cases p with
  | read x k =>
    cases ha
    refine ⟨n, ?_, g⟩
    unfold adv
    rw [g.get x h.1]
  | upd x f k =>
    cases ha
    refine ⟨_, rfl, shape_put.trans (g.shape.trans shape_put.symm), fun y hy => ?_⟩
    by_cases e : x = y
    · subst e
      exact get_put_congr g.shape (g.get x hy)
    · rw [get_put_ne e, get_put_ne e]
      exact g.get y hy
  | dfs q V k =>
    have e : m.dag.edges = n.dag.edges := g.get .edges (.inr h.1.symm)
    cases q with
    | nil => cases ha; exact ⟨n, rfl, g⟩
    | cons x q =>
      simp only [adv] at ha ⊢
      split at ha
      · rename_i hx; cases ha; exact ⟨n, by rw [if_pos hx], g⟩
      · rename_i hx; cases ha; exact ⟨n, by rw [if_neg hx]; unfold Dag.children; rw [e], g⟩
  | _ => cases ha

theorem steps_sec (h : p.Sec F l) (hs : Steps m p m' p') :
    p'.Sec F l ∧ SameShape m' m ∧ ∀ x : Loc, F x ∨ x.guard ≠ l → x.get m' = x.get m := by
  induction hs with
  | refl => exact ⟨h, .refl _, fun _ _ => rfl⟩
  | tail _ ha ih =>
    obtain ⟨h1, h2, h3⟩ := sec_adv ih.1 ha
    exact ⟨h1, h2.trans ih.2.1, fun x hx => (h3 x hx).trans (ih.2.2 x hx)⟩

theorem steps_agree (h : p.Sec F l) (hs : Steps m p m' p') (g : Agree F l m n) : ∃ n', Steps n p n' p' ∧ Agree F l m' n' := by
  induction hs with
  | refl => exact ⟨n, .refl, g⟩
  | tail hs ha ih =>
    obtain ⟨n1, h1, h2⟩ := ih
    obtain ⟨n2, h3, h4⟩ := adv_agree (steps_sec h hs).1 ha h2
    exact ⟨n2, .tail h1 h3, h4⟩

/-- Inside a critical section the steps of a goroutine are these steps, until it unlocks. -/
theorem stepProg_sec {c : Conf} {w : Bool} {held : List (Lock × Bool)} (h : p.Sec F l) {s : V2 × Bool × List (Lock × Bool) × Prog}
    (hs : c.stepProg w held p = some s) :
    (∃ m' k, p.adv c.mem = some (m', k) ∧ s = (m', false, held, k)) ∨
    ∃ r, p = .unlock l true (.done r) ∧ s = (c.mem, false, held.erase (l, true), .done r) := by
  cases p with
  | done r => exact h.elim
  | lock l w k => exact h.elim
  | bfs => exact h.elim
  | unlock l' w' k =>
    obtain ⟨rfl, rfl, r, rfl⟩ := h
    simp only [Conf.stepProg] at hs
    split at hs <;> cases hs
    exact .inr ⟨r, rfl, rfl⟩
  | read x k => cases hs; exact .inl ⟨_, _, rfl, rfl⟩
  | upd x f k => cases hs; exact .inl ⟨_, _, rfl, rfl⟩
  | dfs q V k =>
    cases q with
    | nil => cases hs; exact .inl ⟨_, _, rfl, rfl⟩
    | cons x q =>
      simp only [Conf.stepProg] at hs
      simp only [adv]
      split at hs
      · rename_i hx; cases hs; exact .inl ⟨_, _, by rw [if_pos hx], rfl⟩
      · rename_i hx; cases hs; exact .inl ⟨_, _, by rw [if_neg hx], rfl⟩

end Prog

/-! ## Simulation -/

/-- What a goroutine did, by goroutine: its calls with their results. -/
abbrev Order := List (Nat × LCall × Option (List Str))

/-- The call is one critical section. -/
def LCall.OneSection (F : Loc → Prop) (call : LCall) : Prop := ∃ l p, call.prog = .lock l true p ∧ p.Sec F l

/-- The call runs by itself from `m` to `m'`. -/
def LCall.Solo (call : LCall) (m m' : V2) (r : Option (List Str)) : Prop :=
  ∃ l p, call.prog = .lock l true p ∧ Prog.Steps m p m' (.unlock l true (.done r))

/-- The calls run one after the other. -/
inductive SoloAll : V2 → Order → V2 → Prop where
  | nil {m} : SoloAll m [] m
  | snoc {m L m1 m2 i call r} : SoloAll m L m1 → call.Solo m1 m2 r → SoloAll m (L ++ [(i, call, r)]) m2

/-- The calls of goroutine `i`. -/
def Order.of (L : Order) (i : Nat) : List (LCall × Option (List Str)) := (L.filter fun e => e.1 == i).map (·.2)

theorem Order.of_snoc_same {L : Order} {i : Nat} {e : LCall × Option (List Str)} : Order.of (L ++ [(i, e)]) i = L.of i ++ [e] := by
  simp [Order.of]

theorem Order.of_snoc_ne {L : Order} {i j : Nat} {e : LCall × Option (List Str)} (h : i ≠ j) : Order.of (L ++ [(i, e)]) j = L.of j := by
  simp [Order.of, h]

namespace Conf
variable {c c' : Conf} {F : Loc → Prop}

/-- The call that goroutine `i` completes by its next step: it releases its lock. -/
def release (c : Conf) (i : Nat) : Order :=
  match c.threads[i]?.bind (·.cur) with
  | some (call, .unlock _ _ (.done r)) => [(i, call, r)]
  | _ => []

/-- The calls in the order in which they release their locks. -/
def releases : Conf → List Nat → Order
  | _, [] => []
  | c, i :: is => c.release i ++ match c.step i with
    | none => []
    | some c' => c'.releases is

/-- Where a goroutine stands: between calls or before its lock, in its critical section, or after it. -/
inductive Phase (F : Loc → Prop) (mem M : V2) (own : List (LCall × Option (List Str))) (t : Thread) : Prop where
  | idle : t.cur = none → t.held = [] → own = t.out → Phase F mem M own t
  | before {call l p} : t.cur = some (call, .lock l true p) → call.prog = .lock l true p → p.Sec F l → t.held = [] → own = t.out →
      Phase F mem M own t
  | within {call l p p' n} : t.cur = some (call, p') → call.prog = .lock l true p → p.Sec F l → t.held = [(l, true)] → own = t.out →
      Prog.Steps M p n p' → Agree F l n mem → Phase F mem M own t
  | after {call r} : t.cur = some (call, .done r) → t.held = [] → own = t.out ++ [(call, r)] → Phase F mem M own t

/-- `M` is the memory as the calls in `L`, one after the other, leave it; locations of locks that are held may differ. -/
structure Sim (F : Loc → Prop) (w : V2) (c : Conf) (L : Order) (M : V2) : Prop where
  solo : SoloAll w L M
  shape : SameShape c.mem M
  frozen : ∀ x : Loc, F x → x.get c.mem = x.get M
  free : ∀ x : Loc, (∀ t ∈ c.threads, (x.guard, true) ∉ t.held) → x.get c.mem = x.get M
  todo : ∀ t ∈ c.threads, ∀ call ∈ t.todo, call.OneSection F
  phase : ∀ i t, c.threads[i]? = some t → Phase F c.mem M (L.of i) t

theorem Phase.mem {mem mem' M : V2} {own : List (LCall × Option (List Str))} {t : Thread} (h : Phase F mem M own t)
    (hm : ∀ l n, t.held = [(l, true)] → Agree F l n mem → Agree F l n mem') : Phase F mem' M own t := by
  cases h with
  | idle h1 h2 h3 => exact .idle h1 h2 h3
  | before h1 h2 h3 h4 h5 => exact .before h1 h2 h3 h4 h5
  | within h1 h2 h3 h4 h5 h6 h7 => exact .within h1 h2 h3 h4 h5 h6 (hm _ _ h4 h7)
  | after h1 h2 h3 => exact .after h1 h2 h3

theorem free_set {i : Nat} {t u : Thread} (ht : c.threads[i]? = some t) {k : Lock × Bool} (h : ∀ v ∈ c.threads.set i u, k ∉ v.held)
    (hk : k ∉ t.held) : ∀ v ∈ c.threads, k ∉ v.held := fun v hv => by
  obtain ⟨j, hj⟩ := List.mem_iff_getElem?.1 hv
  by_cases e : i = j
  · subst e
    rw [ht] at hj
    cases hj
    exact hk
  · exact h v (List.mem_iff_getElem?.2 ⟨j, by rw [List.getElem?_set_ne e]; exact hj⟩)

theorem release_cur {i : Nat} {t : Thread} (ht : c.threads[i]? = some t) (hn : ∀ call l b r, t.cur ≠ some (call, .unlock l b (.done r))) :
    c.release i = [] := by
  unfold release
  rw [ht]
  simp only [Option.bind_some]

theorem sim_step {w M : V2} {L : Order} {i : Nat} (ex : Excl c) (s : Sim F w c L M) (h : c.step i = some c') :
    ∃ M', Sim F w c' (L ++ c.release i) M' := by
  obtain ⟨t, ht, mv⟩ := step_eq h
  have hm := List.mem_of_getElem? ht
  have others : ∀ {u : Thread} {j : Nat} {v : Thread}, (c.threads.set i u)[j]? = some v → (i = j ∧ v = u) ∨ (i ≠ j ∧ c.threads[j]? = some v) := by
    intro u j v hj
    by_cases e : i = j
    · subst e
      rw [List.getElem?_set_self (List.getElem?_eq_some_iff.1 ht).1] at hj
      cases hj
      exact .inl ⟨rfl, rfl⟩
    · rw [List.getElem?_set_ne e] at hj
      exact .inr ⟨e, hj⟩
  have todo : ∀ {u : Thread}, (∀ call ∈ u.todo, call ∈ t.todo) → ∀ v ∈ c.threads.set i u, ∀ call ∈ v.todo, call.OneSection F := by
    intro u hu v hv call hc
    rcases List.mem_or_eq_of_mem_set hv with hv | rfl
    · exact s.todo v hv call hc
    · exact s.todo t hm call (hu call hc)
  cases mv with
  | @call call rest h1 h2 =>
    rw [release_cur ht (by simp [h1]), List.append_nil]
    have hp := s.phase i t ht
    have h3 : t.held = [] ∧ L.of i = t.out := by
      cases hp with
      | idle _ h4 h5 => exact ⟨h4, h5⟩
      | before h4 | within h4 | after h4 => rw [h1] at h4; cases h4
    refine ⟨M, s.solo, s.shape, s.frozen, fun x hx => s.free x (free_set ht hx (by rw [h3.1]; simp)), todo ?_, fun j v hj => ?_⟩
    · intro call hc
      rw [h2]
      exact List.mem_cons_of_mem _ hc
    · rcases others hj with ⟨rfl, rfl⟩ | ⟨_, hj⟩
      · obtain ⟨l, p, h4, h5⟩ := s.todo t hm call (h2 ▸ List.mem_cons_self)
        exact .before (by rw [h4]) h4 h5 h3.1 h3.2
      · exact s.phase j v hj
  | @ret call r h1 =>
    rw [release_cur ht (by simp [h1]), List.append_nil]
    have h3 : t.held = [] ∧ L.of i = t.out ++ [(call, r)] := by
      cases s.phase i t ht with
      | idle h4 | before h4 => rw [h1] at h4; cases h4
      | within h4 _ h5 _ _ h6 =>
        rw [h1] at h4
        cases h4
        exact (Prog.steps_sec h5 h6).1.elim
      | after h4 h5 h6 => rw [h1] at h4; cases h4; exact ⟨h5, h6⟩
    refine ⟨M, s.solo, s.shape, s.frozen, fun x hx => s.free x (free_set ht hx (by rw [h3.1]; simp)), todo (fun _ h => h), fun j v hj => ?_⟩
    rcases others hj with ⟨rfl, rfl⟩ | ⟨_, hj⟩
    · exact .idle rfl h3.1 h3.2
    · exact s.phase j v hj
  | @prog call p m b hl k h1 h2 =>
    cases s.phase i t ht with
    | idle h4 => rw [h1] at h4; cases h4
    | after h4 => rw [h1] at h4; cases h4; cases h2
    | @before call' l p0 h4 h5 h6 h7 h8 =>
      rw [h1] at h4
      cases h4
      rw [release_cur ht (by simp [h1]), List.append_nil]
      simp only [stepProg] at h2
      split at h2
      · rename_i hw
        split at h2 <;> cases h2
        have hno : ∀ u ∈ c.threads, (l, true) ∉ u.held := fun u hu hh => by
          obtain ⟨j, hj⟩ := List.mem_iff_getElem?.1 hu
          by_cases e : i = j
          · subst e
            rw [ht] at hj
            cases hj
            rw [h7] at hh
            cases hh
          · exact ex.one i j t u l e ht hj (.inr ⟨hw, _, _, h1⟩) (.inl hh)
        refine ⟨M, s.solo, s.shape, s.frozen, fun x hx => s.free x (free_set ht hx (by rw [h7]; simp)), todo (fun _ h => h), fun j v hj => ?_⟩
        rcases others hj with ⟨rfl, rfl⟩ | ⟨_, hj⟩
        · refine .within rfl h5 h6 (by rw [h7]) h8 .refl ⟨s.shape.symm, fun x hx => ?_⟩
          rcases hx with hx | rfl
          · exact (s.frozen x hx).symm
          · exact (s.free x hno).symm
        · exact s.phase j v hj
      · split at h2 <;> cases h2
        refine ⟨M, s.solo, s.shape, s.frozen, fun x hx => s.free x (free_set ht hx (by rw [h7]; simp)), todo (fun _ h => h), fun j v hj => ?_⟩
        rcases others hj with ⟨rfl, rfl⟩ | ⟨_, hj⟩
        · exact .before rfl h5 h6 h7 h8
        · exact s.phase j v hj
    | @within call' l p0 p' n h4 h5 h6 h7 h8 h9 h10 =>
      rw [h1] at h4
      cases h4
      have g := Prog.steps_sec h6 h9
      have hother : ∀ j v, i ≠ j → c.threads[j]? = some v → (l, true) ∉ v.held := fun j v e hj hh =>
        ex.one i j t v l e ht hj (.inl (by rw [h7]; exact List.mem_cons_self)) (.inl hh)
      rcases Prog.stepProg_sec g.1 h2 with ⟨m', k', h11, h12⟩ | ⟨r, rfl, h12⟩
      · cases h12
        rw [release_cur ht (by rw [h1]; intro _ _ _ _ e; cases e; cases h11), List.append_nil]
        have g2 := Prog.sec_adv g.1 h11
        obtain ⟨n2, h13, h14⟩ := Prog.adv_agree g.1 h11 ⟨h10.shape.symm, fun x hx => (h10.get x hx).symm⟩
        refine ⟨M, s.solo, g2.2.1.trans s.shape, fun x hx => (g2.2.2 x (.inl hx)).trans (s.frozen x hx), fun x hx => ?_, todo (fun _ h => h), fun j v hj => ?_⟩
        · have hxl : x.guard ≠ l := fun e => hx _ (List.mem_set (List.getElem?_eq_some_iff.1 ht).1 _) (by rw [e, h7]; exact List.mem_cons_self)
          refine (g2.2.2 x (.inr hxl)).trans (s.free x (free_set ht hx ?_))
          rw [h7]
          simpa using hxl
        · rcases others hj with ⟨rfl, rfl⟩ | ⟨e, hj⟩
          · exact .within rfl h5 h6 h7 h8 (.tail h9 h13) ⟨h14.shape.symm, fun x hx => (h14.get x hx).symm⟩
          · refine (s.phase j v hj).mem fun l' n' hl' ha => ⟨ha.shape.trans g2.2.1.symm, fun x hx => (ha.get x hx).trans (g2.2.2 x ?_).symm⟩
            rcases hx with hx | rfl
            · exact .inl hx
            · exact .inr fun e' => hother j v e hj (by rw [hl', ← e']; exact List.mem_cons_self)
      · cases h12
        have hrel : c.release i = [(i, call, r)] := by
          unfold release
          rw [ht]
          simp only [Option.bind_some, h1]
        rw [hrel]
        refine ⟨n, .snoc s.solo ⟨l, p0, h5, h9⟩, h10.shape.symm, fun x hx => (h10.get x (.inl hx)).symm, fun x hx => ?_, todo (fun _ h => h), fun j v hj => ?_⟩
        · by_cases e : x.guard = l
          · exact (h10.get x (.inr e)).symm
          · refine (s.free x (free_set ht hx ?_)).trans (g.2.2 x (.inr e)).symm
            rw [h7]
            simpa using e
        · rcases others hj with ⟨rfl, rfl⟩ | ⟨e, hj⟩
          · refine .after rfl ?_ ?_
            · simp [h7]
            · rw [Order.of_snoc_same, h8]
          · rw [Order.of_snoc_ne e]
            cases s.phase j v hj with
            | idle a1 a2 a3 => exact .idle a1 a2 a3
            | before a1 a2 a3 a4 a5 => exact .before a1 a2 a3 a4 a5
            | after a1 a2 a3 => exact .after a1 a2 a3
            | @within call2 l2 q q' n2 a1 a2 a3 a4 a5 a6 a7 =>
              have hne : l ≠ l2 := fun e' => hother j v e hj (by rw [a4, e']; exact List.mem_cons_self)
              obtain ⟨n3, a8, a9⟩ := Prog.steps_agree a3 a6 (n := n) ⟨g.2.1.symm, fun x hx => (g.2.2 x (by
                rcases hx with hx | rfl
                · exact .inl hx
                · exact .inr hne.symm)).symm⟩
              exact .within a1 a2 a3 a4 a5 a8 ⟨a9.shape.symm.trans a7.shape, fun x hx => (a9.get x hx).symm.trans (a7.get x hx)⟩

theorem sim_start {w : V2} {calls : List (List LCall)} (hc : ∀ cs ∈ calls, ∀ call ∈ cs, call.OneSection F) : Sim F w (start w calls) [] w where
  solo := .nil
  shape := .refl _
  frozen _ _ := rfl
  free _ _ := rfl
  todo t ht call hcall := by
    obtain ⟨cs, h1, rfl⟩ := List.mem_map.1 ht
    exact hc cs h1 call hcall
  phase i t ht := by
    obtain ⟨cs, h1, rfl⟩ := List.mem_map.1 (List.mem_of_getElem? ht)
    exact .idle rfl rfl rfl

theorem sim_run {w M : V2} {L : Order} {is : List Nat} (ex : Excl c) (s : Sim F w c L M) (h : c.run is = some c') :
    ∃ M', Sim F w c' (L ++ c.releases is) M' := by
  induction is generalizing c L M with
  | nil => cases h; exact ⟨M, by simpa [releases] using s⟩
  | cons i is ih =>
    obtain ⟨c1, h1, h2⟩ := Option.bind_eq_some_iff.1 h
    obtain ⟨M1, s1⟩ := sim_step ex s h1
    obtain ⟨M2, s2⟩ := ih (excl_step h1 ex) s1 h2
    refine ⟨M2, ?_⟩
    unfold releases
    rw [h1, ← List.append_assoc]
    exact s2

/-- Calls of one critical section each: whenever no lock is held, memory is what the calls leave when they run one after
the other in the order in which they released their locks, with the same results. -/
theorem serial_run {w : V2} {calls : List (List LCall)} (hc : ∀ cs ∈ calls, ∀ call ∈ cs, call.OneSection F) {is : List Nat}
    (h : (start w calls).run is = some c) (hf : ∀ t ∈ c.threads, t.held = []) :
    SoloAll w ((start w calls).releases is) c.mem ∧
    ∀ i t, c.threads[i]? = some t → t.cur = none → ((start w calls).releases is).of i = t.out := by
  obtain ⟨M, s⟩ := sim_run excl_start (sim_start hc) h
  have e : c.mem = M := mem_ext s.shape fun x => s.free x fun t ht => by rw [hf t ht]; simp
  rw [List.nil_append] at s
  refine ⟨e ▸ s.solo, fun i t ht hcur => ?_⟩
  cases s.phase i t ht with
  | idle _ _ h3 => exact h3
  | before h1 | within h1 | after h1 => rw [hcur] at h1; cases h1

end Conf
end Verif
