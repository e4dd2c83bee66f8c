import Verif.Lemmas.V2Locks

/-!
# Lemmas on the role graph under concurrent calls (package v2)

What a goroutine may rely on while it has write-locked the role graph.
-/

namespace Verif

/-- What a role object contributes to a resolution. -/
def contrib (names : Bool) (r : R2) : List Str := if names then [r.name] else r.perms

namespace Dag
variable {d : Dag}

/-! ## The searches, one iteration after the other -/

/-- The result of the loop of `Prog.bfs` when nothing interferes. -/
def bfsz (d : Dag) (names : Bool) : Nat → List Str → List Str → List Str → Option (List Str)
  | _, [], _, res => some res
  | 0, _ :: _, _, _ => none
  | n + 1, x :: q, V, res =>
    if x ∈ V then d.bfsz names n q V res
    else match d.roles.get x with
      | none => d.bfsz names n q (V ++ [x]) res
      | some a => d.bfsz names n (q ++ d.children x) (V ++ [x]) ((contrib names (d.objs.getD a { name := [] })).foldl addStr res)

theorem bfs_of_bfsz (keyed : ∀ k a, (k, a) ∈ d.roles → ∃ o, d.objs[a]? = some o) {names : Bool} {n : Nat} {q V res s : List Str}
    (h : d.bfsz names n q V res = some s) : d.bfs (contrib names) n q V res = .ok s := by
  induction n generalizing q V res with
  | zero =>
    cases q with
    | nil => cases h; rfl
    | cons x q => cases h
  | succ n ih =>
    cases q with
    | nil => cases h; rfl
    | cons x q =>
      unfold bfsz at h
      unfold bfs
      split at h
      · rename_i hx; rw [if_pos hx]; exact ih h
      · rename_i hx
        rw [if_neg hx]
        split at h
        · rename_i hr; rw [hr]; exact ih h
        · rename_i a hr
          rw [hr]
          obtain ⟨o, ho⟩ := keyed _ _ (GoMap.get_some_mem hr)
          simp only [ho]
          rw [List.getD_eq_getElem?_getD, ho] at h
          exact ih h

/-- The result of the search of `Prog.dfs` when nothing interferes. -/
def srch (d : Dag) : Nat → List Str → List Str → Option Bool
  | _, [], _ => some false
  | 0, _ :: _, _ => none
  | n + 1, x :: q, V => if x ∈ V then some true else d.srch n (d.children x ++ q) (V ++ [x])

theorem srch_det {n m : Nat} {q V : List Str} {a b : Bool} (h1 : d.srch n q V = some a) (h2 : d.srch m q V = some b) : a = b := by
  induction n generalizing q V m with
  | zero =>
    cases q with
    | nil => cases m <;> · cases h1; cases h2; rfl
    | cons x q => cases h1
  | succ n ih =>
    cases q with
    | nil => cases m <;> · cases h1; cases h2; rfl
    | cons x q =>
      cases m with
      | zero => cases h2
      | succ m =>
        unfold srch at h1 h2
        split at h1
        · rename_i hx; rw [if_pos hx] at h2; cases h1; cases h2; rfl
        · rename_i hx; rw [if_neg hx] at h2; exact ih h1 h2

/-- The search carries out the recursive calls of `f`. -/
def Carries (d : Dag) (f : Str → List Str → Out (Bool × List Str)) : Prop := ∀ c V r, f c V = .ok r →
  (r.1 = true → ∀ q, ∃ m, d.srch m (c :: q) V = some true) ∧
  (r.1 = false → ∀ q m b, d.srch m q r.2 = some b → ∃ m', d.srch m' (c :: q) V = some b)

theorem carries_loop {f : Str → List Str → Out (Bool × List Str)} (hf : Carries d f) {cs V : List Str} {r : Bool × List Str}
    (h : dfsLoop f cs V = .ok r) :
    (r.1 = true → ∀ q, ∃ m, d.srch m (cs ++ q) V = some true) ∧
    (r.1 = false → ∀ q m b, d.srch m q r.2 = some b → ∃ m', d.srch m' (cs ++ q) V = some b) := by
  induction cs generalizing V with
  | nil => cases h; exact ⟨(fun h => by cases h), fun _ q m b h => ⟨m, h⟩⟩
  | cons c cs ih =>
    unfold dfsLoop at h
    obtain ⟨r1, h1, h2⟩ := Out.bind_eq_ok.1 h
    obtain ⟨g1, g2⟩ := hf _ _ _ h1
    split at h2
    · rename_i hr; cases h2; exact ⟨fun _ q => g1 hr _, fun h => by cases h⟩
    · rename_i hr
      have hr : r1.1 = false := by simpa using hr
      obtain ⟨i1, i2⟩ := ih h2
      refine ⟨fun h q => ?_, fun h q m b hm => ?_⟩
      · obtain ⟨m, hm⟩ := i1 h q
        exact g2 hr _ _ _ hm
      · obtain ⟨m', hm'⟩ := i2 h q m b hm
        exact g2 hr _ _ _ hm'

theorem carries_dfs (d : Dag) (n : Nat) : Carries d (d.dfs n) := by
  induction n with
  | zero => intro c V r h; cases h
  | succ n ih =>
    intro c V r h
    unfold dfs at h
    split at h
    · rename_i hc; cases h; exact ⟨fun _ q => ⟨1, by unfold srch; rw [if_pos hc]⟩, fun h => by cases h⟩
    · rename_i hc
      obtain ⟨h1, h2⟩ := carries_loop ih h
      refine ⟨fun h q => ?_, fun h q m b hm => ?_⟩
      · obtain ⟨m, hm⟩ := h1 h q
        exact ⟨m + 1, by unfold srch; rw [if_neg hc]; exact hm⟩
      · obtain ⟨m', hm'⟩ := h2 h q m b hm
        exact ⟨m' + 1, by unfold srch; rw [if_neg hc]; exact hm'⟩

/-- The search decides as `checkCircularDependency` of the sequential model. -/
theorem srch_check {n : Nat} {p : Str} {cs : List Str} {b : Bool} (h : d.srch n cs [p] = some b) :
    ∃ fuel, d.checkCircular fuel p cs = .ok b := by
  obtain ⟨fuel, hf⟩ := checkCircular_total d p cs
  obtain ⟨b', hb⟩ := hf fuel (Nat.le_refl _)
  refine ⟨fuel, ?_⟩
  rw [hb]
  obtain ⟨r, h1, rfl⟩ := Out.map_eq_ok.1 hb
  obtain ⟨g1, g2⟩ := carries_loop (carries_dfs d fuel) h1
  cases e : r.1 with
  | true =>
    obtain ⟨m, hm⟩ := g1 e []
    rw [List.append_nil] at hm
    rw [srch_det h hm]
  | false =>
    obtain ⟨m, hm⟩ := g2 e [] 0 false rfl
    rw [List.append_nil] at hm
    rw [srch_det h hm]

/-- Where the loop of `Prog.bfs` leads from its present point. -/
def BfsLeads (d : Dag) (names : Bool) : BfsAt → List Str → List Str → List Str → List Str → Prop
  | .pop, q, V, res, s => ∃ n, d.bfsz names n q V res = some s
  | .emit x a, q, V, res, s => ∃ n, d.bfsz names n (q ++ d.children x) V ((contrib names (d.objs.getD a { name := [] })).foldl addStr res) = some s
  | .push x, q, V, res, s => ∃ n, d.bfsz names n (q ++ d.children x) V res = some s

end Dag

/-! ## Relying on the lock of the role graph -/

/-- Facts that stay true: `s` may be returned by a resolution of `r`; role object `a` has been registered; the links from
`p` to `cs` have been added. -/
structure Ghost where
  fact : Str → List Str → Prop
  reg : Nat → Prop
  link : Str → List Str → Prop

structure Ghost.Le (A B : Ghost) : Prop where
  fact : ∀ r s, A.fact r s → B.fact r s
  reg : ∀ a, A.reg a → B.reg a
  link : ∀ p cs, A.link p cs → B.link p cs

theorem Ghost.Le.refl (A : Ghost) : A.Le A := ⟨fun _ _ h => h, fun _ h => h, fun _ _ h => h⟩
theorem Ghost.Le.trans {A B C : Ghost} (h1 : A.Le B) (h2 : B.Le C) : A.Le C :=
  ⟨fun _ _ h => h2.fact _ _ (h1.fact _ _ h), fun _ h => h2.reg _ (h1.reg _ h), fun _ _ h => h2.link _ _ (h1.link _ _ h)⟩

/-- What a returned call has established. -/
def Ghost.post (A : Ghost) (r : Option (List Str)) : LCall → Prop
  | .resolve _ n => ∃ s, r = some s ∧ A.fact n s
  | .addRoles as => ∀ a ∈ as, A.reg a
  | .addChildRole p cs => r = none → A.link p cs
  | _ => True

theorem Ghost.post_mono {A B : Ghost} (h : A.Le B) {r : Option (List Str)} {call : LCall} (hp : A.post r call) : B.post r call := by
  cases call with
  | resolve names n => obtain ⟨s, h1, h2⟩ := hp; exact ⟨s, h1, h.fact _ _ h2⟩
  | addRoles as => exact fun a ha => h.reg a (hp a ha)
  | addChildRole p cs => exact fun hr => h.link p cs (hp hr)
  | _ => trivial

/-- The role graph, without the permissions unless they cannot change (`full`). -/
def view (full : Bool) (m : V2) : Dag :=
  if full then m.dag else { m.dag with objs := m.dag.objs.map fun o => { o with perms := [] } }

/-- The locations seen in `view`. -/
def Loc.own (full : Bool) : Loc → Bool
  | .roles | .edges | .resolved | .roleName _ => true
  | .perms _ => full
  | _ => false

theorem view_put {full : Bool} {x : Loc} (hx : x.own full = false) (m : V2) (f : Cell x → Cell x) : view full (x.put m f) = view full m := by
  cases x with
  | perms a =>
    cases full with
    | true => cases hx
    | false =>
      have : ∀ (l : List R2) (n : Nat) (g : List Str → List Str),
          (l.modify n fun r => { r with perms := g r.perms }).map (fun o => ({ o with perms := [] } : R2)) = l.map fun o => { o with perms := [] } := by
        intro l n g
        refine List.ext_getElem? fun i => ?_
        rw [List.getElem?_map, List.getElem?_map, List.getElem?_modify]
        cases l[i]? with
        | none => rfl
        | some r => simp only [Option.map_some, Option.map_eq_map]; split <;> rfl
      exact congrArg (fun o => ({ m.dag with objs := o } : Dag)) (this m.dag.objs a f)
  | _ => first | rfl | cases hx

/-- An invariant of the role graph, kept outside critical sections and after each step, with growing facts. -/
structure Rules where
  full : Bool
  R : Ghost → Dag → Prop
  ext : Ghost → Dag → Ghost
  le_ext : ∀ (A : Ghost) (d : Dag), A.Le (ext A d)
  R_ext : ∀ {A : Ghost} {d : Dag}, R A d → R (ext A d) d

namespace Prog

/-- The program keeps the rules; `s` is the role graph if the goroutine has write-locked it. -/
def Good (ρ : Rules) (call : LCall) : Prog → Ghost → Option Dag → Prop
  | done r, A, _ => A.post r call
  | lock l w k, A, s => if l = .dag ∧ w = true then ∀ B d, A.Le B → ρ.R B d → Good ρ call k B (some d) else Good ρ call k A s
  | unlock l w k, A, s => if l = .dag ∧ w = true then Good ρ call k A none else Good ρ call k A s
  | read x k, A, s => ∀ B m, A.Le B → ρ.R B (view ρ.full m) → (∀ d, s = some d → view ρ.full m = d) → Good ρ call (k (x.get m)) B s
  | upd x f k, A, s =>
    if x.own ρ.full = true then ∃ d, s = some d ∧ ∀ B m, A.Le B → ρ.R B (view ρ.full m) → view ρ.full m = d →
      ρ.R (ρ.ext B (view ρ.full (x.put m f))) (view ρ.full (x.put m f)) ∧
        Good ρ call k (ρ.ext B (view ρ.full (x.put m f))) (some (view ρ.full (x.put m f)))
    else Good ρ call k A s
  | bfs names a q V res k, A, s => ∀ r, (∀ d, ρ.full = true → s = some d → d.BfsLeads names a q V res r) → Good ρ call (k r) A s
  | dfs q V k, A, s => ∀ b, (∀ d, s = some d → ∃ n, d.srch n q V = some b) → Good ρ call (k b) A s

variable {ρ : Rules} {call : LCall}

theorem good_mono {p : Prog} {A B : Ghost} {s : Option Dag} (h : A.Le B) (hp : p.Good ρ call A s) : p.Good ρ call B s := by
  induction p generalizing A B s with
  | done r => exact Ghost.post_mono h hp
  | lock l w k ih =>
    unfold Good at hp ⊢
    split at hp
    · rename_i e; rw [if_pos e]; exact fun C d hC hd => hp C d (h.trans hC) hd
    · rename_i e; rw [if_neg e]; exact ih h hp
  | unlock l w k ih =>
    unfold Good at hp ⊢
    split at hp
    · rename_i e; rw [if_pos e]; exact ih h hp
    · rename_i e; rw [if_neg e]; exact ih h hp
  | read x k ih => exact fun C m hC => hp C m (h.trans hC)
  | upd x f k ih =>
    unfold Good at hp ⊢
    split at hp
    · rename_i e
      rw [if_pos e]
      obtain ⟨d, hd, hp⟩ := hp
      exact ⟨d, hd, fun C m hC => hp C m (h.trans hC)⟩
    · rename_i e; rw [if_neg e]; exact ih h hp
  | bfs names a q V res k ih => exact fun r hr => ih r h (hp r hr)
  | dfs q V k ih => exact fun b hb => ih b h (hp b hb)

end Prog

namespace Conf
variable {c c' : Conf} {ρ : Rules}

/-- The role graph, if `held` includes its write lock. -/
def known (ρ : Rules) (m : V2) (held : List (Lock × Bool)) : Option Dag :=
  if (Lock.dag, true) ∈ held then some (view ρ.full m) else none

theorem view_roles {full : Bool} {m : V2} : (view full m).roles = m.dag.roles := by cases full <;> rfl
theorem view_edges {full : Bool} {m : V2} : (view full m).edges = m.dag.edges := by cases full <;> rfl
theorem view_resolved {full : Bool} {m : V2} : (view full m).resolved = m.dag.resolved := by cases full <;> rfl
theorem view_children {full : Bool} {m : V2} {x : Str} : (view full m).children x = m.dag.children x := by cases full <;> rfl

theorem known_eq {m : V2} {held : List (Lock × Bool)} {d : Dag} (h : known ρ m held = some d) : d = view ρ.full m := by
  unfold known at h
  split at h <;> cases h
  rfl

theorem known_congr {m : V2} {h h' : List (Lock × Bool)} (e : (Lock.dag, true) ∈ h ↔ (Lock.dag, true) ∈ h') : known ρ m h = known ρ m h' := by
  unfold known
  by_cases g : (Lock.dag, true) ∈ h
  · rw [if_pos g, if_pos (e.1 g)]
  · rw [if_neg g, if_neg (fun k => g (e.2 k))]

/-- A step keeps the rules, and leaves the role graph alone unless it is locked. -/
theorem good_step {w : Bool} {held : List (Lock × Bool)} {call : LCall} {p : Prog} {m : V2} {b : Bool} {h : List (Lock × Bool)} {k : Prog}
    {A : Ghost} (hs : c.stepProg w held p = some (m, b, h, k)) (hf : p.Fits held) (hR : ρ.R A (view ρ.full c.mem))
    (hg : p.Good ρ call A (known ρ c.mem held)) :
    ρ.R (ρ.ext A (view ρ.full m)) (view ρ.full m) ∧ k.Good ρ call (ρ.ext A (view ρ.full m)) (known ρ m h) ∧
      ((Lock.dag, true) ∉ held → view ρ.full m = view ρ.full c.mem) := by
  have stay : ∀ {k : Prog} {h : List (Lock × Bool)}, k.Good ρ call A (known ρ c.mem h) →
      ρ.R (ρ.ext A (view ρ.full c.mem)) (view ρ.full c.mem) ∧ k.Good ρ call (ρ.ext A (view ρ.full c.mem)) (known ρ c.mem h) ∧
      ((Lock.dag, true) ∉ held → view ρ.full c.mem = view ρ.full c.mem) := fun hk =>
    ⟨ρ.R_ext hR, Prog.good_mono (ρ.le_ext _ _) hk, fun _ => rfl⟩
  cases p with
  | done r => cases hs
  | lock l w' p =>
    have same : ¬ (l = .dag ∧ w' = true) → p.Good ρ call A (known ρ c.mem ((l, w') :: held)) := fun hn => by
      unfold Prog.Good at hg
      rw [if_neg hn] at hg
      rw [known_congr (h' := held)]
      · exact hg
      · simp only [List.mem_cons, Prod.mk.injEq, or_iff_right_iff_imp]
        exact fun h => absurd ⟨h.1.symm, h.2.symm⟩ hn
    cases w' <;> simp only [stepProg] at hs
    · split at hs <;> cases hs
      exact stay (same (by simp))
    · split at hs <;> split at hs <;> cases hs
      · refine stay ?_
        by_cases hl : l = .dag
        · subst hl
          unfold Prog.Good at hg
          rw [if_pos ⟨rfl, rfl⟩] at hg
          unfold known
          rw [if_pos List.mem_cons_self]
          exact hg A _ (.refl _) hR
        · exact same (fun h => hl h.1)
      · exact stay hg
  | unlock l w' p =>
    obtain ⟨rfl, hf⟩ := hf
    simp only [stepProg, List.contains_cons, beq_self_eq_true, List.contains_nil, Bool.or_false, if_true, Option.some.injEq, Prod.mk.injEq,
      List.erase_cons_head] at hs
    obtain ⟨rfl, rfl, rfl, rfl⟩ := hs
    refine stay ?_
    unfold Prog.Good at hg
    split at hg
    · exact hg
    · rename_i hn
      rw [known_congr (h' := [(l, w')])]
      · exact hg
      · simp only [List.not_mem_nil, List.mem_singleton, Prod.mk.injEq, false_iff]
        exact fun h => hn ⟨h.1.symm, h.2.symm⟩
  | read x p =>
    cases hs
    exact stay (hg A c.mem (.refl _) hR fun d hd => (known_eq hd).symm)
  | upd x f p =>
    cases hs
    unfold Prog.Good at hg
    split at hg
    · obtain ⟨d, hd, hg⟩ := hg
      obtain ⟨g1, g2⟩ := hg A c.mem (.refl _) hR (known_eq hd).symm
      have hin : (Lock.dag, true) ∈ held := Classical.byContradiction fun hn => by
        unfold known at hd
        rw [if_neg hn] at hd
        cases hd
      refine ⟨g1, ?_, fun hn => absurd hin hn⟩
      unfold known
      rw [if_pos hin]
      exact g2
    · rename_i hx
      have e := view_put (full := ρ.full) (by simpa using hx) c.mem f
      have ek : known ρ (x.put c.mem f) held = known ρ c.mem held := by unfold known; rw [e]
      rw [ek, e]
      exact stay hg
  | bfs names a q V res p =>
    cases a with
    | pop =>
      cases q with
      | nil => cases hs; exact stay (hg _ fun d _ _ => ⟨0, rfl⟩)
      | cons x q =>
        simp only [stepProg] at hs
        split at hs
        · rename_i hx
          cases hs
          refine stay fun r hr => hg r fun d hd e => ?_
          obtain ⟨n, hn⟩ := hr d hd e
          exact ⟨n + 1, by unfold Dag.bfsz; rw [if_pos hx]; exact hn⟩
        · rename_i hx
          split at hs <;> cases hs
          · rename_i hr'
            refine stay fun r hr => hg r fun d hd e => ?_
            obtain ⟨n, hn⟩ := hr d hd e
            refine ⟨n + 1, ?_⟩
            unfold Dag.bfsz
            rw [if_neg hx, known_eq e, view_roles, hr', ← known_eq e]
            exact hn
          · rename_i a hr'
            refine stay fun r hr => hg r fun d hd e => ?_
            obtain ⟨n, hn⟩ := hr d hd e
            refine ⟨n + 1, ?_⟩
            have hd' := known_eq e
            unfold Dag.bfsz
            rw [if_neg hx, show d.roles.get x = some a by rw [hd', view_roles, hr']]
            exact hn
    | emit x a =>
      cases hs
      refine stay fun r hr => hg r fun d hd e => ?_
      obtain ⟨n, hn⟩ := hr d hd e
      refine ⟨n, ?_⟩
      have : d = c.mem.dag := by rw [known_eq e, hd]; rfl
      rw [this] at hn ⊢
      exact hn
    | push x =>
      cases hs
      refine stay fun r hr => hg r fun d hd e => ?_
      obtain ⟨n, hn⟩ := hr d hd e
      refine ⟨n, ?_⟩
      rw [known_eq e, view_children, ← known_eq e]
      exact hn
  | dfs q V p =>
    cases q with
    | nil => cases hs; exact stay (hg _ fun d _ => ⟨0, rfl⟩)
    | cons x q =>
      simp only [stepProg] at hs
      split at hs <;> cases hs
      · rename_i hx
        exact stay (hg _ fun d _ => ⟨1, by unfold Dag.srch; rw [if_pos hx]⟩)
      · rename_i hx
        refine stay fun b hb => hg b fun d e => ?_
        obtain ⟨n, hn⟩ := hb d e
        refine ⟨n + 1, ?_⟩
        unfold Dag.srch
        rw [if_neg hx, known_eq e, view_children, ← known_eq e]
        exact hn

/-- The rules hold in a configuration. -/
structure Ruled (ρ : Rules) (A : Ghost) (c : Conf) : Prop where
  mem : ρ.R A (view ρ.full c.mem)
  todo : ∀ t ∈ c.threads, ∀ call ∈ t.todo, ∀ B, A.Le B → call.prog.Good ρ call B none
  cur : ∀ t ∈ c.threads, ∀ call p, t.cur = some (call, p) → p.Good ρ call A (known ρ c.mem t.held)
  out : ∀ t ∈ c.threads, ∀ e ∈ t.out, A.post e.2 e.1

theorem ruled_step {i : Nat} {A : Ghost} (h : c.step i = some c') (ok : ∀ t ∈ c.threads, t.Ok) (ex : Excl c) (hr : Ruled ρ A c) :
    Ruled ρ (ρ.ext A (view ρ.full c'.mem)) c' := by
  obtain ⟨t, ht, mv⟩ := step_eq h
  have hm := List.mem_of_getElem? ht
  cases mv with
  | @call call rest h1 h2 =>
    have le := ρ.le_ext A (view ρ.full c.mem)
    refine ⟨ρ.R_ext hr.mem, threads_set (fun u hu call hc B hB => hr.todo u hu call hc B (le.trans hB)) ?_,
      threads_set (fun u hu call p hp => Prog.good_mono le (hr.cur u hu call p hp)) ?_,
      threads_set (fun u hu e he => Ghost.post_mono le (hr.out u hu e he)) fun e he => Ghost.post_mono le (hr.out t hm e he)⟩
    · exact fun call' hc B hB => hr.todo t hm call' (h2 ▸ List.mem_cons_of_mem _ hc) B (le.trans hB)
    · intro call' p hp
      cases hp
      have hok := ok t hm
      unfold Thread.Ok at hok
      rw [h1] at hok
      have hok : t.held = [] := hok
      show Prog.Good ρ call call.prog _ (known ρ c.mem t.held)
      rw [hok]
      exact hr.todo t hm call (h2 ▸ List.mem_cons_self) _ le
  | @ret call r h1 =>
    have le := ρ.le_ext A (view ρ.full c.mem)
    refine ⟨ρ.R_ext hr.mem, threads_set (fun u hu call hc B hB => hr.todo u hu call hc B (le.trans hB)) ?_,
      threads_set (fun u hu call p hp => Prog.good_mono le (hr.cur u hu call p hp)) ?_,
      threads_set (fun u hu e he => Ghost.post_mono le (hr.out u hu e he)) ?_⟩
    · exact fun call' hc B hB => hr.todo t hm call' hc B (le.trans hB)
    · intro call' p hp; cases hp
    · intro e he
      rcases List.mem_append.1 he with he | he
      · exact Ghost.post_mono le (hr.out t hm e he)
      · rw [List.mem_singleton] at he
        subst he
        exact Ghost.post_mono le (hr.cur t hm _ _ h1)
  | @prog call p m b hl k h1 h2 =>
    have hok := ok t hm
    unfold Thread.Ok at hok
    rw [h1] at hok
    obtain ⟨g1, g2, g3⟩ := good_step h2 hok hr.mem (hr.cur t hm _ _ h1)
    have le := ρ.le_ext A (view ρ.full m)
    refine ⟨g1, threads_set (fun u hu call hc B hB => hr.todo u hu call hc B (le.trans hB)) ?_, ?_,
      threads_set (fun u hu e he => Ghost.post_mono le (hr.out u hu e he)) fun e he => Ghost.post_mono le (hr.out t hm e he)⟩
    · exact fun call' hc B hB => hr.todo t hm call' hc B (le.trans hB)
    · intro u hu call' p' hp'
      obtain ⟨j, hj⟩ := List.mem_iff_getElem?.1 hu
      rw [List.getElem?_set] at hj
      split at hj
      · split at hj <;> cases hj
        cases hp'
        exact g2
      · rename_i hij
        have hu' := List.mem_of_getElem? hj
        refine Prog.good_mono le ?_
        have ek : known ρ m u.held = known ρ c.mem u.held := by
          unfold known
          split
          · rename_i hd
            rw [g3 fun hd' => ex.one i j t u .dag hij ht hj (.inl hd') (.inl hd)]
          · rfl
        rw [ek]
        exact hr.cur u hu' _ _ hp'

end Conf

/-! ## The calls keep the rules -/

namespace Prog
variable {ρ : Rules} {call : LCall}

/-- The program does not touch the role graph. -/
def Quiet (full : Bool) : Prog → Prop
  | done _ => True
  | lock l w k => ¬ (l = .dag ∧ w = true) ∧ Quiet full k
  | unlock l w k => ¬ (l = .dag ∧ w = true) ∧ Quiet full k
  | read _ k => ∀ v, Quiet full (k v)
  | upd x _ k => x.own full = false ∧ Quiet full k
  | bfs .. => False
  | dfs .. => False

theorem good_quiet {p : Prog} (hq : p.Quiet ρ.full) (hp : ∀ (A : Ghost) r, A.post r call) (A : Ghost) (s : Option Dag) : p.Good ρ call A s := by
  induction p generalizing A s with
  | done r => exact hp A r
  | lock l w k ih => unfold Good; rw [if_neg hq.1]; exact ih hq.2 A s
  | unlock l w k ih => unfold Good; rw [if_neg hq.1]; exact ih hq.2 A s
  | read x k ih => exact fun B m _ _ _ => ih _ (hq _) B s
  | upd x f k ih => unfold Good; rw [if_neg (by simp [hq.1])]; exact ih hq.2 A s
  | bfs => exact hq.elim
  | dfs => exact hq.elim

theorem good_upd {x : Loc} {f : Cell x → Cell x} {k : Prog} {A : Ghost} {d : Dag} (hx : x.own ρ.full = true) (g : Dag → Dag)
    (hg : ∀ m, view ρ.full (x.put m f) = g (view ρ.full m))
    (h : ∀ B, A.Le B → ρ.R B d → ρ.R (ρ.ext B (g d)) (g d) ∧ Good ρ call k (ρ.ext B (g d)) (some (g d))) :
    Good ρ call (upd x f k) A (some d) := by
  unfold Good
  rw [if_pos hx]
  refine ⟨d, rfl, fun B m hB hR hm => ?_⟩
  rw [hg, hm]
  exact h B hB (hm ▸ hR)

variable {full : Bool}

theorem quiet_foldr {α : Type} {f : α → Prog → Prog} {as : List α} {k : Prog}
    (hf : ∀ a k, Quiet full k → Quiet full (f a k)) (hk : Quiet full k) : Quiet full (as.foldr f k) := by
  induction as with
  | nil => exact hk
  | cons a as ih => exact hf a _ ih

theorem quiet_updAll {α : Type} {x : Loc} {f : α → Cell x → Cell x} {as : List α} {k : Prog} (hx : x.own full = false)
    (hk : Quiet full k) : Quiet full (LCall.updAll x f as k) := quiet_foldr (fun _ _ h => ⟨hx, h⟩) hk

theorem quiet_locked {l : Lock} {body : (Option (List Str) → Prog) → Prog} (hl : l ≠ .dag)
    (hb : ∀ k : Option (List Str) → Prog, (∀ r, Quiet full (k r)) → Quiet full (body k)) : Quiet full (LCall.locked l body) :=
  ⟨fun h => hl h.1, hb _ fun _ => ⟨fun h => hl h.1, trivial⟩⟩

theorem quiet_readPRs {l : List (Option Nat)} {k : List (Option Nat × PR) → Prog} (hk : ∀ us, Quiet full (k us)) :
    Quiet full (LCall.readPRs l k) := by
  induction l generalizing k with
  | nil => exact hk _
  | cons x l ih =>
    cases x with
    | none => exact ih fun _ => hk _
    | some i => exact fun _ => ih fun _ => hk _

theorem quiet_addPRs {is : List Nat} {k : Prog} (hk : Quiet full k) : Quiet full (LCall.addPRs is k) := by
  induction is with
  | nil => exact hk
  | cons i is ih => exact ⟨rfl, fun _ => ⟨rfl, ih⟩⟩

end Prog

namespace LCall
open Prog

/-- The call may touch the role graph. -/
def Graph (full : Bool) : LCall → Prop
  | addRoles _ | addChildRole _ _ | resolve _ _ | judge _ => True
  | addPermission _ _ | removePermission _ _ => full = true
  | _ => False

theorem quiet_prog {full : Bool} {call : LCall} (h : ¬ call.Graph full) : Quiet full call.prog := by
  cases call with
  | addPermission a ps => exact quiet_locked (by simp) fun k hk => quiet_updAll (by simpa [Graph, Loc.own] using h) (hk _)
  | removePermission a ps => exact quiet_locked (by simp) fun k hk => quiet_updAll (by simpa [Graph, Loc.own] using h) (hk _)
  | addNamespace c n d =>
    unfold prog
    refine quiet_locked (by simp) ?_
    intro k hk m
    have ht : Quiet full (if d = true then Prog.upd (.defNs c) (fun _ => n) (k none) else k none) := by
      split
      · exact ⟨rfl, hk _⟩
      · exact hk _
    simp only
    split
    · exact ht
    · exact ⟨rfl, ht⟩
  | addScopes c n scs =>
    unfold prog
    refine quiet_locked (by simp) ?_
    intro k hk m
    simp only
    split
    · exact hk _
    · exact quiet_updAll rfl (hk _)
  | addChildTenant c ds =>
    unfold prog
    refine quiet_locked (by simp) ?_
    intro k hk
    refine quiet_foldr ?_ (hk _)
    exact fun _ _ h _ => ⟨rfl, h⟩
  | addRoles as => exact absurd trivial h
  | addChildRole p cs => exact absurd trivial h
  | resolve names r => exact absurd trivial h
  | getRole r => exact fun _ => trivial
  | addTenant c =>
    unfold prog
    refine quiet_locked (by simp) ?_
    intro k hk _
    refine ⟨rfl, fun _ => quiet_foldr ?_ (hk _)⟩
    exact fun _ _ h _ => ⟨rfl, h⟩
  | getTenant id =>
    unfold prog
    refine quiet_locked (by simp) ?_
    exact fun k hk _ => hk _
  | setDefaultTenant id => exact ⟨rfl, trivial⟩
  | addPrincipalRole is => exact quiet_locked (by simp) fun k hk => quiet_addPRs (hk _)
  | removePrincipalRole target =>
    refine fun l => quiet_readPRs fun us => ?_
    split
    · exact ⟨rfl, fun m => quiet_readPRs fun vs => ⟨rfl, trivial⟩⟩
    · trivial
  | setExpiry i e => exact ⟨rfl, trivial⟩
  | judge acts => exact absurd trivial h

end LCall

/-- Some call resolves permissions (`names = false`) or names. -/
def LCall.Resolves (names : Bool) : LCall → Prop
  | .resolve b _ => b = names
  | .judge acts => ∃ r, Act.resolve names r ∈ acts
  | _ => False

/-- The steps of the calls described by `ok` keep the rules. -/
structure Rules.Laws (ρ : Rules) (ok : LCall → Prop) : Prop where
  perms : ρ.full = true → ∀ a ps, ¬ ok (.addPermission a ps) ∧ ¬ ok (.removePermission a ps)
  cached : ∀ {A d r s}, ρ.R A d → d.resolved.get r = some s → A.fact r s
  computed : ∀ {A d names r s call}, ok call → call.Resolves names → ρ.R A d →
    (ρ.full = true → ∃ n, d.bfsz names n [r] [] [] = some s) → A.fact r s
  cache : ∀ {A d r s}, ρ.R A d → A.fact r s → ρ.R (ρ.ext A { d with resolved := d.resolved.set r s }) { d with resolved := d.resolved.set r s }
  role : ∀ {A d as a}, ok (.addRoles as) → a ∈ as → ρ.R A d →
    let d' := { d with roles := d.roles.set (d.objs.getD a { name := [] }).name a }
    ρ.R (ρ.ext A d') d' ∧ (ρ.ext A d').reg a
  child : ∀ {A d p cs n}, ok (.addChildRole p cs) → ρ.R A d → d.srch n cs [p] = some false →
    let d' := { d with edges := d.edges.set p (d.children p ++ cs) }
    ρ.R (ρ.ext A d') d' ∧ (ρ.ext A d').link p cs

namespace LCall
open Prog Conf
variable {ρ : Rules} {ok : LCall → Prop}

theorem getD_name {l : List R2} {a : Nat} : ((l.map fun o => ({ o with perms := [] } : R2)).getD a { name := [] }).name = (l.getD a { name := [] }).name := by
  rw [List.getD_eq_getElem?_getD, List.getD_eq_getElem?_getD, List.getElem?_map]
  cases l[a]? <;> rfl

theorem view_name {full : Bool} {m : V2} {a : Nat} : ((view full m).objs.getD a { name := [] }).name = (m.roleAt a).name := by
  cases full
  · exact getD_name
  · rfl

theorem put_roles {full : Bool} {m : V2} {f : Cell .roles → Cell .roles} :
    view full (Loc.roles.put m f) = { view full m with roles := f (view full m).roles } := by cases full <;> rfl
theorem put_edges {full : Bool} {m : V2} {f : Cell .edges → Cell .edges} :
    view full (Loc.edges.put m f) = { view full m with edges := f (view full m).edges } := by cases full <;> rfl
theorem put_resolved {full : Bool} {m : V2} {f : Cell .resolved → Cell .resolved} :
    view full (Loc.resolved.put m f) = { view full m with resolved := f (view full m).resolved } := by cases full <;> rfl

theorem good_resolveK (L : ρ.Laws ok) {call : LCall} (hc : ok call) {names : Bool} (hn : call.Resolves names) {r : Str} {k : List Str → Prog}
    {A : Ghost} (hk : ∀ B s, A.Le B → B.fact r s → (k s).Good ρ call B none) : (resolveK names r k).Good ρ call A none := by
  unfold resolveK Good
  rw [if_neg (by simp)]
  intro B m hB hR _
  simp only
  split
  · rename_i s hs
    unfold Good
    rw [if_neg (by simp)]
    have hs : (view ρ.full m).resolved.get r = some s := by rw [view_resolved]; exact hs
    exact hk B s hB (L.cached hR hs)
  · unfold Good
    rw [if_neg (by simp)]
    unfold Good
    rw [if_pos ⟨rfl, rfl⟩]
    intro C d hC hd s hs
    have hf : C.fact r s := L.computed hc hn hd fun e => hs d e rfl
    simp only
    refine good_upd rfl (fun d => { d with resolved := d.resolved.set r s }) (fun m => put_resolved) fun E hE hR' => ?_
    refine ⟨L.cache hR' (hE.fact _ _ hf), ?_⟩
    unfold Good
    rw [if_pos ⟨rfl, rfl⟩]
    have le := hE.trans (ρ.le_ext E { d with resolved := d.resolved.set r s })
    exact hk _ s (hB.trans (hC.trans le)) (le.fact _ _ hf)

theorem good_judgeK (L : ρ.Laws ok) {all acts : List Act} (hc : ok (.judge all)) (hs : ∀ a ∈ acts, a ∈ all) (A : Ghost) :
    (judgeK acts).Good ρ (.judge all) A none := by
  induction acts generalizing A with
  | nil => trivial
  | cons a acts ih =>
    have ih := ih fun a ha => hs a (List.mem_cons_of_mem _ ha)
    cases a with
    | peek y =>
      unfold judgeK
      split
      · exact fun B _ _ _ _ => ih B
      · exact ih A
    | resolve names r => exact good_resolveK L hc ⟨r, hs _ List.mem_cons_self⟩ fun B _ _ _ => ih B
    | getTenant =>
      unfold judgeK Good
      rw [if_neg (by simp)]
      intro B _ _ _ _
      unfold Good
      rw [if_neg (by simp)]
      exact ih B

theorem good_prog (L : ρ.Laws ok) {call : LCall} (hc : ok call) (A : Ghost) : call.prog.Good ρ call A none := by
  by_cases hg : call.Graph ρ.full
  · cases call with
    | addPermission a ps => exact absurd hc (L.perms hg a ps).1
    | removePermission a ps => exact absurd hc (L.perms hg a ps).2
    | addRoles as =>
      unfold prog locked Good
      rw [if_pos ⟨rfl, rfl⟩]
      intro B d _ hd
      simp only
      have key : ∀ (bs : List Nat) (B : Ghost) (d : Dag), (∀ a ∈ bs, a ∈ as) → ρ.R B d → (∀ a ∈ as, a ∈ bs ∨ B.reg a) →
          Prog.Good ρ (.addRoles as) (bs.foldr (fun a k => Prog.read (.roleName a) fun n =>
            Prog.upd .roles (fun m => GoMap.set (κ := Str) (ν := Nat) m n a) k) (.unlock .dag true (.done none))) B (some d) := by
        intro bs
        induction bs with
        | nil =>
          intro B d _ hd hb
          show Prog.Good ρ (.addRoles as) (.unlock .dag true (.done none)) B (some d)
          unfold Good
          rw [if_pos ⟨rfl, rfl⟩]
          exact fun a ha => (hb a ha).resolve_left (by simp)
        | cons a bs ih =>
          intro B d hs hd hb C m hC hR hm
          simp only
          have hn : (Loc.get m (Loc.roleName a) : Str) = (d.objs.getD a { name := [] }).name := by
            have := hm d rfl
            rw [← this, view_name]
            rfl
          generalize Loc.get m (Loc.roleName a) = n at hn ⊢
          refine good_upd rfl (fun d' => { d' with roles := d'.roles.set (d.objs.getD a { name := [] }).name a })
            (fun m' => hn ▸ put_roles) fun E hE hR' => ?_
          obtain ⟨g1, g2⟩ := L.role hc (hs a List.mem_cons_self) hR'
          refine ⟨g1, ih _ _ (fun b hb => hs b (List.mem_cons_of_mem _ hb)) g1 fun b hbm => ?_⟩
          rcases hb b hbm with h1 | h1
          · rcases List.mem_cons.1 h1 with rfl | h1
            · exact .inr g2
            · exact .inl h1
          · exact .inr (((hC.trans hE).trans (ρ.le_ext _ _)).reg _ h1)
      exact key as B d (fun _ h => h) hd fun a ha => .inl ha
    | addChildRole p cs =>
      unfold prog locked Good
      rw [if_pos ⟨rfl, rfl⟩]
      intro B d _ hd b hb
      simp only
      split
      · unfold Good
        rw [if_pos ⟨rfl, rfl⟩]
        exact fun h => by cases h
      · rename_i hbt
        have hbf : b = false := by simpa using hbt
        subst hbf
        obtain ⟨n, hn⟩ := hb d rfl
        refine good_upd rfl (fun d => { d with edges := d.edges.set p (d.children p ++ cs) }) (fun m => put_edges) fun E hE hR' => ?_
        obtain ⟨g1, g2⟩ := L.child hc hR' hn
        refine ⟨g1, ?_⟩
        unfold Good
        rw [if_pos ⟨rfl, rfl⟩]
        exact fun _ => g2
    | resolve names r => exact good_resolveK L hc rfl fun B s _ hf => ⟨s, rfl, hf⟩
    | judge acts => exact good_judgeK L hc (fun _ h => h) A
    | _ => exact hg.elim
  · refine good_quiet (quiet_prog hg) ?_ A none
    cases call with
    | addRoles as => exact absurd trivial hg
    | addChildRole p cs => exact absurd trivial hg
    | resolve names r => exact absurd trivial hg
    | _ => exact fun _ _ => trivial

end LCall

namespace Conf
variable {c : Conf} {w : V2} {calls : List (List LCall)} {ρ : Rules} {ok : LCall → Prop}

/-- The facts collected by a schedule. -/
def facts (ρ : Rules) : Ghost → Conf → List Nat → Ghost
  | A, _, [] => A
  | A, c, i :: is =>
    match c.step i with
    | none => A
    | some c' => facts ρ (ρ.ext A (view ρ.full c'.mem)) c' is

theorem ruled_run {A : Ghost} {c c' : Conf} {is : List Nat} (h : c.run is = some c') (ok : ∀ t ∈ c.threads, t.Ok) (ex : Excl c) (hr : Ruled ρ A c) :
    Ruled ρ (facts ρ A c is) c' := by
  induction is generalizing c A with
  | nil => cases h; exact hr
  | cons i is ih =>
    obtain ⟨c1, h1, h2⟩ := Option.bind_eq_some_iff.1 h
    unfold facts
    rw [h1]
    exact ih h2 (step_ok h1 ok) (excl_step h1 ex) (ruled_step h1 ok ex hr)

theorem ruled_start (L : ρ.Laws ok) (hc : ∀ cs ∈ calls, ∀ call ∈ cs, ok call) {A : Ghost} (h0 : ρ.R A (view ρ.full w)) :
    Ruled ρ A (start w calls) := by
  refine ⟨h0, fun t ht call hm B _ => ?_, fun t ht call p hp => ?_, fun t ht e he => ?_⟩ <;>
  · obtain ⟨cs, hcs, rfl⟩ := List.mem_map.1 ht
    first
      | exact LCall.good_prog L (hc cs hcs call hm) B
      | cases hp
      | cases he

/-- The rules hold after every schedule. -/
theorem ruled (L : ρ.Laws ok) (hc : ∀ cs ∈ calls, ∀ call ∈ cs, ok call) {A : Ghost} (h0 : ρ.R A (view ρ.full w)) {is : List Nat}
    (h : (start w calls).run is = some c) : Ruled ρ (facts ρ A (start w calls) is) c :=
  ruled_run h start_ok excl_start (ruled_start L hc h0)

end Conf
end Verif
