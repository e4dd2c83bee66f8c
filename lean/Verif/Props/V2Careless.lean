import Verif.Props.V2Serial

/-!
# Package v2: every call listed in `LCall.Careless` can race (C84)
-/

namespace Verif
namespace Conf
open LCall

/-- Some schedule leads from one configuration to the other. -/
def Leads (c c' : Conf) : Prop := ∃ is, c.run is = some c'

theorem Leads.refl (c : Conf) : Leads c c := ⟨[], rfl⟩

theorem Leads.trans {c c' c'' : Conf} (h : Leads c c') (h' : Leads c' c'') : Leads c c'' := by
  obtain ⟨is, h⟩ := h
  obtain ⟨js, h'⟩ := h'
  refine ⟨is ++ js, ?_⟩
  induction is generalizing c with
  | nil => cases h; exact h'
  | cons i is ih =>
    simp only [Conf.run, List.cons_append, Option.bind_eq_some_iff] at h ⊢
    obtain ⟨c1, h1, h2⟩ := h
    exact ⟨c1, h1, ih h2⟩

theorem Leads.step {c c' : Conf} {i : Nat} (h : c.step i = some c') : Leads c c' := ⟨[i], by simp [run, h]⟩

/-- A goroutine in its only call. -/
abbrev busy (call : LCall) (p : Prog) (h : List (Lock × Bool)) : Thread := { cur := some (call, p), held := h }

/-- Nobody holds the lock or waits for one. -/
def Quiet (l : Lock) (ts : List Thread) : Prop := ∀ v ∈ ts, (∀ b, (l, b) ∉ v.held) ∧ v.waiting = false

section
variable {m : V2} {ts : List Thread} {i : Nat} {call : LCall} {h : List (Lock × Bool)}

theorem leads_call (ht : ts[i]? = some { todo := [call] }) : Leads ⟨m, ts⟩ ⟨m, ts.set i (busy call call.prog [])⟩ :=
  .step (i := i) (by simp [Conf.step, ht])

theorem leads_prog (hi : i < ts.length) {p k : Prog} {b b' : Bool} {m' : V2} {h' : List (Lock × Bool)} (hp : ∀ r, p ≠ .done r)
    (e : Conf.stepProg ⟨m, ts.set i { cur := some (call, p), held := h, waiting := b }⟩ b h p = some (m', b', h', k)) :
    Leads ⟨m, ts.set i { cur := some (call, p), held := h, waiting := b }⟩ ⟨m', ts.set i { cur := some (call, k), held := h', waiting := b' }⟩ := by
  refine .step (i := i) ?_
  unfold Conf.step
  rw [List.getElem?_set_self hi]
  cases p with
  | done r => exact absurd rfl (hp r)
  | _ => simp only [e, Option.map_some, List.set_set]

theorem leads_read (hi : i < ts.length) {x : Loc} {k : Cell x → Prog} :
    Leads ⟨m, ts.set i (busy call (.read x k) h)⟩ ⟨m, ts.set i (busy call (k (x.get m)) h)⟩ :=
  leads_prog hi (by simp) rfl

theorem leads_upd (hi : i < ts.length) {x : Loc} {f : Cell x → Cell x} {k : Prog} :
    Leads ⟨m, ts.set i (busy call (.upd x f k) h)⟩ ⟨x.put m f, ts.set i (busy call k h)⟩ :=
  leads_prog hi (by simp) rfl

theorem leads_unlock (hi : i < ts.length) {l : Lock} {w : Bool} {k : Prog} (hm : (l, w) ∈ h) :
    Leads ⟨m, ts.set i (busy call (.unlock l w k) h)⟩ ⟨m, ts.set i (busy call k (h.erase (l, w)))⟩ :=
  leads_prog hi (by simp) (by simp [stepProg, hm])

theorem quiet_claimed {l : Lock} {u : Thread} (hq : Quiet l ts) (hu : ∀ b, (l, b) ∉ u.held) (hw : u.waiting = false) :
    claimed ⟨m, ts.set i u⟩ l = false := by
  rw [claimed, List.any_eq_false]
  intro v hv
  have key : (∀ b, (l, b) ∉ v.held) ∧ v.waiting = false := by
    rcases List.mem_or_eq_of_mem_set hv with h | rfl
    · exact hq v h
    · exact ⟨hu, hw⟩
  simp only [key.1 true, key.2, List.contains_eq_mem, decide_false, Bool.false_and, Bool.false_or, Bool.not_eq_true]
  split <;> rfl

theorem leads_rlock (hi : i < ts.length) {l : Lock} {k : Prog} (hq : Quiet l ts) (hl : ∀ b, (l, b) ∉ h) :
    Leads ⟨m, ts.set i (busy call (.lock l false k) h)⟩ ⟨m, ts.set i (busy call k ((l, false) :: h))⟩ :=
  leads_prog hi (by simp) (by rw [stepProg, quiet_claimed hq hl rfl]; simp)

theorem leads_lock (hi : i < ts.length) {l : Lock} {k : Prog} (hq : Quiet l ts) (hl : ∀ b, (l, b) ∉ h) :
    Leads ⟨m, ts.set i (busy call (.lock l true k) h)⟩ ⟨m, ts.set i (busy call k ((l, true) :: h))⟩ := by
  refine (leads_prog hi (b' := true) (k := .lock l true k) (h' := h) (m' := m) (by simp) (by rw [stepProg, quiet_claimed hq (u := busy call (.lock l true k) h) hl rfl]; rfl)).trans ?_
  refine leads_prog hi (by simp) ?_
  have hr : hasReader ⟨m, ts.set i { cur := some (call, .lock l true k), held := h, waiting := true }⟩ l = false := by
    rw [hasReader, List.any_eq_false]
    intro v hv
    rcases List.mem_or_eq_of_mem_set hv with h | rfl
    · simp [(hq v h).1]
    · simp [hl]
  simp [stepProg, hr]

/-- The loop of a resolution ends. -/
theorem leads_bfs (hi : i < ts.length) {names : Bool} {k : List Str → Prog} :
    ∀ (a : BfsAt) (q V res : List Str), ∃ s, Leads ⟨m, ts.set i (busy call (.bfs names a q V res k) h)⟩ ⟨m, ts.set i (busy call (k s) h)⟩ := by
  suffices key : ∀ c : Conf, ∀ (a : BfsAt) (q V res : List Str), c = ⟨m, ts.set i (busy call (.bfs names a q V res k) h)⟩ →
      ∃ s, Leads c ⟨m, ts.set i (busy call (k s) h)⟩ from fun a q V res => key _ a q V res rfl
  intro c
  induction c using wf_step.induction with
  | _ c ih =>
    rintro a q V res rfl
    have next : ∀ {a' q' V' res'}, Conf.stepProg ⟨m, ts.set i (busy call (.bfs names a q V res k) h)⟩ false h (.bfs names a q V res k) =
        some (m, false, h, .bfs names a' q' V' res' k) → ∃ s, Leads ⟨m, ts.set i (busy call (.bfs names a q V res k) h)⟩ ⟨m, ts.set i (busy call (k s) h)⟩ := by
      intro a' q' V' res' e
      have hstep : Conf.step ⟨m, ts.set i (busy call (.bfs names a q V res k) h)⟩ i = some ⟨m, ts.set i (busy call (.bfs names a' q' V' res' k) h)⟩ := by
        unfold Conf.step
        rw [List.getElem?_set_self hi]
        simp only [e, Option.map_some, List.set_set]
      obtain ⟨s, hs⟩ := ih _ ⟨i, hstep⟩ a' q' V' res' rfl
      exact ⟨s, (Leads.step hstep).trans hs⟩
    cases a with
    | pop =>
      cases q with
      | nil => exact ⟨res, leads_prog hi (by simp) rfl⟩
      | cons x q =>
        by_cases hx : x ∈ V
        · exact next (a' := .pop) (q' := q) (V' := V) (res' := res) (by simp [stepProg, hx])
        · cases hg : m.dag.roles.get x with
          | none => exact next (a' := .pop) (q' := q) (V' := V ++ [x]) (res' := res) (by simp [stepProg, hx, hg])
          | some o => exact next (a' := .emit x o) (q' := q) (V' := V ++ [x]) (res' := res) (by simp [stepProg, hx, hg])
    | emit x o => exact next rfl
    | push x => exact next rfl

/-- The same memory with another resolution cache. -/
abbrev recache (m : V2) (R : GoMap Str (List Str)) : V2 := { m with dag := { m.dag with resolved := R } }

/-- A decision gets to any of its accesses, if nobody is in its way. -/
theorem leads_judge (hi : i < ts.length) (h1 : Quiet .dag ts) (h2 : Quiet .auth ts) {post : List Act} : ∀ (pre : List Act) (m : V2),
    ∃ R, Leads ⟨m, ts.set i (busy call (judgeK (pre ++ post)) [])⟩ ⟨recache m R, ts.set i (busy call (judgeK post) [])⟩ ∧
      ∀ r, (∀ b, Act.resolve b r ∉ pre) → R.get r = m.dag.resolved.get r := by
  intro pre
  induction pre with
  | nil => exact fun m => ⟨m.dag.resolved, .refl _, fun _ _ => rfl⟩
  | cons a pre ih =>
    intro m
    have later : ∀ {R' : GoMap Str (List Str)}, (∀ r, (∀ b, Act.resolve b r ∉ pre) → R'.get r = m.dag.resolved.get r) →
        ∀ r, (∀ b, Act.resolve b r ∉ a :: pre) → R'.get r = m.dag.resolved.get r :=
      fun h r hr => h r fun b hb => hr b (List.mem_cons_of_mem _ hb)
    cases a with
    | peek x =>
      obtain ⟨R, h3, h4⟩ := ih m
      refine ⟨R, ?_, later h4⟩
      rw [List.cons_append, judgeK]
      split
      · exact (leads_read hi).trans h3
      · exact h3
    | getTenant =>
      obtain ⟨R, h3, h4⟩ := ih m
      refine ⟨R, ?_, later h4⟩
      rw [List.cons_append, judgeK]
      refine (leads_lock hi h2 (by simp)).trans ((leads_read hi).trans ((leads_unlock hi (by simp)).trans ?_))
      simpa using h3
    | resolve names r =>
      rw [List.cons_append, judgeK, resolveK]
      cases hg : m.dag.resolved.get r with
      | some s =>
        obtain ⟨R, h3, h4⟩ := ih m
        refine ⟨R, ?_, later h4⟩
        refine (leads_rlock hi h1 (by simp)).trans ((leads_read hi).trans ?_)
        simp only [Loc.get, hg]
        refine (leads_unlock hi (by simp)).trans ?_
        simpa using h3
      | none =>
        obtain ⟨s, hs⟩ := leads_bfs (m := m) (call := call) (h := [(.dag, true)]) hi (names := names)
          (k := fun s => .upd .resolved (fun m => GoMap.set (κ := Str) (ν := List Str) m r s) (.unlock .dag true (judgeK (pre ++ post)))) .pop [r] [] []
        obtain ⟨R, h3, h4⟩ := ih (recache m (m.dag.resolved.set r s))
        refine ⟨R, ?_, fun r' hr' => ?_⟩
        · refine (leads_rlock hi h1 (by simp)).trans ((leads_read hi).trans ?_)
          simp only [Loc.get, hg]
          refine (leads_unlock hi (by simp)).trans ?_
          rw [show List.erase [(Lock.dag, false)] (Lock.dag, false) = [] from rfl]
          refine (leads_lock hi h1 (by simp)).trans (hs.trans ((leads_upd hi).trans ((leads_unlock hi (by simp)).trans ?_)))
          rw [show List.erase [(Lock.dag, true)] (Lock.dag, true) = [] from rfl]
          exact h3
        · rw [h4 r' fun b hb => hr' b (List.mem_cons_of_mem _ hb)]
          have hne : r ≠ r' := fun e => hr' names (by rw [e]; exact List.mem_cons_self)
          simp [GoMap.get_set, hne]

end

/-- The number of the object a location belongs to. -/
def _root_.Verif.Loc.addr : Loc → Nat
  | .roleName a | .perms a | .tenantId a | .namespaces a | .defNs a | .status a | .children a | .assigned a | .expiry a => a
  | _ => 0

/-- Somebody who changes the location can do so whoever else is accessing it, provided they do not hold its lock. -/
theorem leads_writer {x : Loc} (hx : ¬ x.Fixed) (hn : x ≠ .edges ∧ x ≠ .resolved ∧ x ≠ .parents) : ∃ other : LCall,
    (∀ w : V2, x.addr < w.dag.objs.length → x.addr < w.tobjs.length → x.addr < w.prs.length → other.Valid w) ∧ ∀ (m : V2) (u : Thread),
    (∀ c, (m.tenantAt c).namespaces = []) → (∀ b, (x.guard, b) ∉ u.held) → u.waiting = false →
    ∃ m' t, Leads ⟨m, [{ todo := [other] }, u]⟩ ⟨m', [t, u]⟩ ∧ t.Accesses x true := by
  have hq : ∀ {u : Thread} {other : LCall}, (∀ b, (x.guard, b) ∉ u.held) → u.waiting = false → Quiet x.guard [{ todo := [other] }, u] := by
    intro u other h1 h2 v hv
    simp only [List.mem_cons, List.not_mem_nil, or_false] at hv
    rcases hv with rfl | rfl
    · simp
    · exact ⟨h1, h2⟩
  have h0 : ∀ {u : Thread} {other : LCall}, 0 < [({ todo := [other] } : Thread), u].length := by simp
  have enter : ∀ {other : LCall} {k : Prog} {u : Thread} {m : V2}, other.prog = .lock x.guard true k → (∀ b, (x.guard, b) ∉ u.held) →
      u.waiting = false → Leads ⟨m, [{ todo := [other] }, u]⟩ ⟨m, [{ todo := [other] }, u].set 0 (busy other k [(x.guard, true)])⟩ := by
    intro other k u m e h1 h2
    have := leads_call (m := m) (ts := [{ todo := [other] }, u]) (i := 0) (call := other) rfl
    rw [e] at this
    exact this.trans (leads_lock h0 (hq h1 h2) (by simp))
  cases x with
  | edges => exact absurd rfl hn.1
  | resolved => exact absurd rfl hn.2.1
  | parents => exact absurd rfl hn.2.2
  | roleName a => exact absurd trivial hx
  | tenantId c => exact absurd trivial hx
  | assigned j => exact absurd trivial hx
  | status c => exact absurd trivial hx
  | roles =>
    refine ⟨.addRoles [0], fun w h1 h2 h3 => by simpa [LCall.Valid, Loc.addr] using h1, fun m u _ h1 h2 => ⟨_, _, (enter rfl h1 h2).trans (leads_read h0), ?_⟩⟩
    exact ⟨_, _, rfl, rfl⟩
  | perms a =>
    refine ⟨.addPermission a [⟨str "x", str "read", []⟩], fun w h1 h2 h3 => h1, fun m u _ h1 h2 => ⟨_, _, enter rfl h1 h2, ?_⟩⟩
    exact ⟨_, _, rfl, rfl⟩
  | tenants =>
    refine ⟨.addTenant 0, fun w h1 h2 h3 => h2, fun m u _ h1 h2 => ⟨_, _, (enter rfl h1 h2).trans (leads_read h0), ?_⟩⟩
    exact ⟨_, _, rfl, rfl⟩
  | defTenant => exact ⟨.setDefaultTenant (str "t"), fun w h1 h2 h3 => trivial, fun m u _ h1 h2 => ⟨_, _, leads_call (i := 0) rfl, _, _, rfl, rfl⟩⟩
  | userRoles =>
    refine ⟨.addPrincipalRole [0], fun w h1 h2 h3 => by simpa [LCall.Valid, Loc.addr] using h3, fun m u _ h1 h2 => ⟨_, _, enter rfl h1 h2, ?_⟩⟩
    exact ⟨_, _, rfl, rfl⟩
  | index =>
    refine ⟨.addPrincipalRole [0], fun w h1 h2 h3 => by simpa [LCall.Valid, Loc.addr] using h3, fun m u _ h1 h2 => ⟨_, _, (enter rfl h1 h2).trans ((leads_upd h0).trans (leads_read h0)), ?_⟩⟩
    exact ⟨_, _, rfl, rfl⟩
  | namespaces c =>
    refine ⟨.addNamespace c (str "n") false, fun w h1 h2 h3 => h2, fun m u h3 h1 h2 => ⟨_, _, (enter rfl h1 h2).trans (leads_read h0), ?_⟩⟩
    simp only [Loc.get, h3]
    exact ⟨_, _, rfl, rfl⟩
  | defNs c =>
    refine ⟨.addNamespace c (str "n") true, fun w h1 h2 h3 => h2, fun m u h3 h1 h2 => ?_⟩
    have e := (enter (other := .addNamespace c (str "n") true) (m := m) rfl h1 h2).trans (leads_read h0)
    simp only [Loc.get, h3] at e
    exact ⟨_, _, e.trans (leads_upd h0), _, _, rfl, rfl⟩
  | children c =>
    refine ⟨.addChildTenant c [0], fun w h1 h2 h3 => ⟨h2, by simpa using Nat.lt_of_le_of_lt (Nat.zero_le _) h2⟩, fun m u _ h1 h2 => ⟨_, _, (enter rfl h1 h2).trans (leads_read h0), ?_⟩⟩
    exact ⟨_, _, rfl, rfl⟩
  | expiry j => exact ⟨.setExpiry j none, fun w h1 h2 h3 => h3, fun m u _ h1 h2 => ⟨_, _, leads_call (i := 0) rfl, _, _, rfl, rfl⟩⟩

/-- `n + 1` roles, tenants and assignments, all assignments equal to `target`, the first one in use. -/
def world (n : Nat) (roles : GoMap Str Nat) (target : PR) : V2 where
  dag := { objs := List.replicate (n + 1) { name := str "r" }, roles := roles }
  tobjs := List.replicate (n + 1) { id := str "t" }
  prs := List.replicate (n + 1) target
  userRoles := [some 0]

theorem world_namespaces {n c : Nat} {roles : GoMap Str Nat} {target : PR} : ((world n roles target).tenantAt c).namespaces = [] := by
  simp only [world, V2.tenantAt, List.getD_eq_getElem?_getD, List.getElem?_replicate]
  split <;> rfl

/-- Careless calls get to their access. -/
theorem leads_careless {x : Loc} {call : LCall} (hc : call.Careless x)
    (hf : ∀ acts, call = .judge acts → (∃ a, x = .perms a) → ∃ pre r post, acts = pre ++ .resolve false r :: post ∧ ∀ b, Act.resolve b r ∉ pre) :
    ∃ roles target, call.Valid (world x.addr roles target) ∧ ∀ other : LCall, ∃ m u b,
      Leads (start (world x.addr roles target) [[other], [call]]) ⟨m, [{ todo := [other] }, u]⟩ ∧
      (∀ c, (m.tenantAt c).namespaces = []) ∧ (∀ b, (x.guard, b) ∉ u.held) ∧ u.waiting = false ∧ u.Accesses x b := by
  have h1 : ∀ {other : LCall}, 1 < [({ todo := [other] } : Thread), { todo := [call] }].length := by simp
  have hq : ∀ {other : LCall} {l : Lock}, Quiet l [({ todo := [other] } : Thread), { todo := [call] }] := by
    intro other l v hv
    simp only [List.mem_cons, List.not_mem_nil, or_false] at hv
    rcases hv with rfl | rfl <;> simp
  have begin : ∀ {other : LCall} (w : V2), Leads (start w [[other], [call]])
      ⟨w, [{ todo := [other] }, { todo := [call] }].set 1 (busy call call.prog [])⟩ := fun w => leads_call (i := 1) rfl
  have emit : ∀ {other : LCall} {r : Str} {a : Nat} {k : List Str → Prog} {m : V2}, m.dag.resolved.get r = none → m.dag.roles.get r = some a →
      ∃ q V res k', Leads ⟨m, [({ todo := [other] } : Thread), { todo := [call] }].set 1 (busy call (resolveK false r k) [])⟩
        ⟨m, [({ todo := [other] } : Thread), { todo := [call] }].set 1 (busy call (.bfs false (.emit r a) q V res k') [(.dag, true)])⟩ := by
    intro other r a k m hg ha
    refine ⟨[], [r], [], fun s => .upd .resolved (fun m => GoMap.set (κ := Str) (ν := List Str) m r s) (.unlock .dag true (k s)),
      (leads_rlock h1 hq (by simp)).trans ((leads_read h1).trans ?_)⟩
    simp only [Loc.get, hg]
    refine (leads_unlock h1 (by simp)).trans ?_
    rw [show List.erase [(Lock.dag, false)] (Lock.dag, false) = [] from rfl]
    refine (leads_lock h1 hq (by simp)).trans (leads_prog h1 (by simp) ?_)
    simp [stepProg, ha]
  cases call with
  | getRole r =>
    cases hc
    exact ⟨[], {}, trivial, fun other => ⟨_, _, false, begin _, fun _ => world_namespaces, by simp, rfl, _, _, rfl, rfl⟩⟩
  | resolve names r =>
    obtain ⟨rfl, a, rfl⟩ := hc
    refine ⟨[(r, a)], {}, trivial, fun other => ?_⟩
    obtain ⟨q, V, res, k', h⟩ := emit (other := other) (r := r) (a := a) (k := fun s => .done (some s)) (m := world a [(r, a)] {}) rfl (by simp [world, GoMap.get])
    exact ⟨_, _, false, (begin _).trans h, fun _ => world_namespaces, by simp [Loc.guard], rfl, _, _, rfl, rfl⟩
  | addTenant c =>
    cases hc
    refine ⟨[], {}, by simp [LCall.Valid, world, Loc.addr], fun other => ⟨_, _, false, (begin _).trans ((leads_lock (h := []) h1 hq (by simp)).trans
      ((leads_read h1).trans (leads_upd h1))), ?_, ?_, rfl, _, _, rfl, rfl⟩⟩
    · exact fun _ => world_namespaces (n := c) (roles := []) (target := {})
    · simp [Loc.guard]
  | setDefaultTenant id =>
    cases hc
    exact ⟨[], {}, trivial, fun other => ⟨_, _, true, begin _, fun _ => world_namespaces, by simp, rfl, _, _, rfl, rfl⟩⟩
  | setExpiry i e =>
    cases hc
    exact ⟨[], {}, by simp [LCall.Valid, world, Loc.addr], fun other => ⟨_, _, true, begin _, fun _ => world_namespaces, by simp, rfl, _, _, rfl, rfl⟩⟩
  | removePrincipalRole target =>
    rcases hc with rfl | rfl
    · exact ⟨[], target, by simp [LCall.Valid, world], fun other => ⟨_, _, false, begin _, fun _ => world_namespaces, by simp, rfl, _, _, rfl, rfl⟩⟩
    · refine ⟨[], target, by simp [LCall.Valid, world], fun other => ?_⟩
      have e := (begin (other := other) (world 0 [] target)).trans ((leads_read h1).trans (leads_read h1))
      have hm : V2.matchesPR target { target with expiry := none } = true := by simp [V2.matchesPR]
      simp only [Loc.get, world, readPRs, List.replicate, List.getD_cons_zero, List.any_cons, hm, Bool.true_or, if_true] at e
      exact ⟨_, _, false, e.trans (leads_upd h1), fun _ => world_namespaces (n := 0) (roles := []) (target := target), by simp, rfl, _, _, rfl, rfl⟩
  | judge acts =>
    by_cases hp : ∃ a, x = .perms a
    · obtain ⟨pre, r, post, rfl, hr⟩ := hf acts rfl hp
      obtain ⟨a, rfl⟩ := hp
      refine ⟨[(r, a)], {}, trivial, fun other => ?_⟩
      obtain ⟨R, h2, h3⟩ := leads_judge (call := .judge (pre ++ .resolve false r :: post)) (post := .resolve false r :: post)
        (h1 (other := other)) hq hq pre (world a [(r, a)] {})
      obtain ⟨q, V, res, k', h⟩ := emit (other := other) (r := r) (a := a) (k := fun _ => judgeK post) (m := recache (world a [(r, a)] {}) R)
        (h3 r hr) (by simp [world, GoMap.get])
      exact ⟨_, _, false, (begin _).trans (h2.trans h), fun _ => world_namespaces (n := a) (roles := [(r, a)]) (target := {}),
        by simp [Loc.guard], rfl, _, _, rfl, rfl⟩
    · have hc : x.peekable = true ∧ Act.peek x ∈ acts := hc.resolve_right fun h => hp h.1
      obtain ⟨pre, post, rfl⟩ := List.append_of_mem hc.2
      refine ⟨[], {}, trivial, fun other => ?_⟩
      obtain ⟨R, h2, _⟩ := leads_judge (call := .judge (pre ++ .peek x :: post)) (post := .peek x :: post)
        (h1 (other := other)) hq hq pre (world x.addr [] {})
      rw [judgeK, if_pos hc.1] at h2
      exact ⟨_, _, false, (begin _).trans h2, fun _ => world_namespaces (n := x.addr) (roles := []) (target := {}),
        by simp, rfl, _, _, rfl, rfl⟩
  | _ => cases hc

/-- C84. Each entry of `LCall.Careless` is needed: the call can race on the location with a suitable other call. The
exception is a decision whose resolutions of permissions all concern roles it has resolved before. -/
theorem C84_careless {x : Loc} (hx : ¬ x.Fixed) {call : LCall} (hc : call.Careless x)
    (hf : ∀ acts, call = .judge acts → (∃ a, x = .perms a) → ∃ pre r post, acts = pre ++ .resolve false r :: post ∧ ∀ b, Act.resolve b r ∉ pre) :
    ∃ w other is c, call.Valid w ∧ other.Valid w ∧ (start w [[other], [call]]).run is = some c ∧ Race c x := by
  have hn : x ≠ .edges ∧ x ≠ .resolved ∧ x ≠ .parents := by
    refine ⟨?_, ?_, ?_⟩ <;>
    · rintro rfl
      cases call <;> simp [LCall.Careless, Loc.peekable] at hc
  obtain ⟨other, hv, hw⟩ := leads_writer hx hn
  obtain ⟨roles, target, hv', hr⟩ := leads_careless hc hf
  obtain ⟨m, u, b, h1, h2, h3, h4, h5⟩ := hr other
  obtain ⟨m', t, h6, h7⟩ := hw m u h2 h3 h4
  obtain ⟨is, h8⟩ := h1.trans h6
  exact ⟨_, other, is, _, hv', hv _ (by simp [world]) (by simp [world]) (by simp [world]), h8, 0, 1, t, u, b, by decide, rfl, rfl, h7, h5⟩

/-- A decision that resolves a role, looks at the default tenant and resolves the permissions of another role: it can race on
the default tenant, and on the permissions of any role. -/
example (a : Nat) :
    (∃ w other is c, (LCall.judge [.resolve true (str "r"), .peek .defTenant, .resolve false (str "s")]).Valid w ∧ other.Valid w ∧
      (start w [[other], [.judge [.resolve true (str "r"), .peek .defTenant, .resolve false (str "s")]]]).run is = some c ∧ Race c .defTenant) ∧
    ∃ w other is c, (LCall.judge [.resolve true (str "r"), .peek .defTenant, .resolve false (str "s")]).Valid w ∧ other.Valid w ∧
      (start w [[other], [.judge [.resolve true (str "r"), .peek .defTenant, .resolve false (str "s")]]]).run is = some c ∧ Race c (.perms a) := by
  refine ⟨C84_careless (x := .defTenant) (fun h => h) (.inl ⟨rfl, by simp⟩) ?_, C84_careless (x := .perms a) (fun h => h) (.inr ⟨⟨a, rfl⟩, str "s", by simp⟩) ?_⟩
  · rintro _ _ ⟨a, h⟩
    cases h
  · rintro _ h _
    cases h
    have : str "s" ≠ str "r" := by decide +kernel
    exact ⟨[.resolve true (str "r"), .peek .defTenant], str "s", [], rfl, by simp [this]⟩

end Conf
end Verif
