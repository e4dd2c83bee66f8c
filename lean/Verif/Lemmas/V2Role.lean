import Verif.Spec.V2Role

namespace Verif
open Spec

@[simp] theorem mem_addStr {s : List Str} {x y : Str} : y ∈ addStr s x ↔ y ∈ s ∨ y = x := by
  unfold addStr
  split
  · rename_i h
    exact ⟨.inl, fun h' => h'.elim id fun e => e ▸ h⟩
  · simp

theorem nodup_addStr {s : List Str} {x : Str} (h : s.Nodup) : (addStr s x).Nodup := by
  unfold addStr
  split
  · exact h
  · rename_i hx
    rw [List.nodup_append]
    exact ⟨h, by simp, fun a ha b hb e => by rw [List.mem_singleton] at hb; exact hx (hb ▸ e ▸ ha)⟩

@[simp] theorem mem_addStrs {l s : List Str} {y : Str} : y ∈ l.foldl addStr s ↔ y ∈ s ∨ y ∈ l := by
  induction l generalizing s with
  | nil => simp
  | cons a l ih => rw [List.foldl_cons, ih, mem_addStr, List.mem_cons, or_assoc]

theorem nodup_addStrs {l s : List Str} (h : s.Nodup) : (l.foldl addStr s).Nodup := by
  induction l generalizing s with
  | nil => exact h
  | cons a l ih => exact ih (nodup_addStr h)

theorem mem_removeStrs {l s : List Str} {y : Str} :
    y ∈ l.foldl (fun s x => s.filter (· ≠ x)) s ↔ y ∈ s ∧ y ∉ l := by
  induction l generalizing s with
  | nil => simp
  | cons a l ih => rw [List.foldl_cons, ih]; simp [and_assoc]

theorem nodup_removeStrs {l s : List Str} (h : s.Nodup) : (l.foldl (fun s x => s.filter (· ≠ x)) s).Nodup := by
  induction l generalizing s with
  | nil => exact h
  | cons a l ih => exact ih (h.filter _)

namespace Dag

/-- Invariant of the role graph. -/
structure DInv (d : Dag) : Prop where
  rolesWF : GoMap.WF d.roles
  edgesWF : GoMap.WF d.edges
  resolvedWF : GoMap.WF d.resolved
  keyed : ∀ k a, (k, a) ∈ d.roles → ∃ o, d.objs[a]? = some o ∧ o.name = k
  perms : ∀ o ∈ d.objs, o.perms.Nodup

variable {d d' : Dag}

theorem edge_iff (inv : GoMap.WF d.edges) {a b : Str} : Edge d a b ↔ b ∈ d.children a := by
  unfold Edge children
  constructor
  · rintro ⟨cs, h1, h2⟩; rw [(GoMap.mem_iff_get inv).1 h1]; exact h2
  · intro h
    cases e : d.edges.get a with
    | none => simp [e] at h
    | some cs => rw [e] at h; exact ⟨cs, GoMap.get_some_mem e, h⟩

theorem children_of_mem (inv : GoMap.WF d.edges) {a : Str} {cs : List Str} (h : (a, cs) ∈ d.edges) :
    d.children a = cs := by
  unfold children; rw [(GoMap.mem_iff_get inv).1 h]; rfl

theorem mem_edges_of_child {a c : Str} (h : c ∈ d.children a) : (a, d.children a) ∈ d.edges := by
  unfold children at *
  cases e : d.edges.get a with
  | none => simp [e] at h
  | some cs => exact GoMap.get_some_mem e

/-! ### The cycle check -/

/-- What an accepting (`false`) or rejecting (`true`) run of the loop means. -/
def DfsSpec (route : List Nat → Str → Prop) (V : List Str) : Bool × List Str → Prop
  | (false, V') => (∀ x, x ∈ V' ↔ x ∈ V ∨ ∃ is, route is x) ∧ (∀ is x, route is x → x ∉ V) ∧
      ∀ is js x, route is x → route js x → is = js
  | (true, _) => (∃ is x, route is x ∧ x ∈ V) ∨ ∃ is js x, is ≠ js ∧ route is x ∧ route js x

theorem routeFrom_cons {c : Str} {cs : List Str} {is : List Nat} {x : Str} :
    RouteFrom d (c :: cs) is x ↔ (∃ js, is = 0 :: js ∧ Route d c js x) ∨
      ∃ i js, is = (i + 1) :: js ∧ RouteFrom d cs (i :: js) x := by
  cases is with
  | nil => simp [RouteFrom]
  | cons i is =>
    cases i with
    | zero => simp [RouteFrom]
    | succ i =>
      simp only [RouteFrom, List.getElem?_cons_succ]
      constructor
      · exact fun h => .inr ⟨i, is, rfl, h⟩
      · rintro (⟨js, h, _⟩ | ⟨j, js, h, h2⟩)
        · cases h
        · cases h; exact h2

theorem dfsLoop_spec {f : Str → List Str → Out (Bool × List Str)} {cs V : List Str} {r : Bool × List Str}
    (hf : ∀ c V r, f c V = .ok r → DfsSpec (Route d c) V r) (h : dfsLoop f cs V = .ok r) :
    DfsSpec (RouteFrom d cs) V r := by
  induction cs generalizing V with
  | nil =>
    cases h
    exact ⟨fun x => ⟨.inl, fun h => h.elim id fun ⟨is, h⟩ => by cases is <;> simp [RouteFrom] at h⟩,
      fun is x h => by cases is <;> simp [RouteFrom] at h, fun is js x h => by cases is <;> simp [RouteFrom] at h⟩
  | cons c cs ih =>
    obtain ⟨⟨b, V1⟩, h1, h2⟩ := Out.bind_eq_ok.1 h
    have s1 := hf _ _ _ h1
    cases b with
    | true =>
      cases h2
      rcases s1 with ⟨is, x, h3, h4⟩ | ⟨is, js, x, h3, h4, h5⟩
      · exact .inl ⟨0 :: is, x, routeFrom_cons.2 (.inl ⟨_, rfl, h3⟩), h4⟩
      · exact .inr ⟨0 :: is, 0 :: js, x, by simpa using h3, routeFrom_cons.2 (.inl ⟨_, rfl, h4⟩),
          routeFrom_cons.2 (.inl ⟨_, rfl, h5⟩)⟩
    | false =>
      obtain ⟨a1, a2, a3⟩ := s1
      have s2 := ih h2
      obtain ⟨b, V2⟩ := r
      have lift : ∀ {is x}, RouteFrom d cs is x → ∃ i js, is = i :: js ∧ RouteFrom d (c :: cs) ((i + 1) :: js) x := by
        intro is x h
        cases is with
        | nil => simp [RouteFrom] at h
        | cons i js => exact ⟨i, js, rfl, routeFrom_cons.2 (.inr ⟨i, js, rfl, h⟩)⟩
      cases b with
      | true =>
        rcases s2 with ⟨is, x, h3, h4⟩ | ⟨is, js, x, h3, h4, h5⟩
        · obtain ⟨i, js, rfl, h5⟩ := lift h3
          rcases (a1 x).1 h4 with h4 | ⟨ks, h4⟩
          · exact .inl ⟨_, x, h5, h4⟩
          · exact .inr ⟨_, 0 :: ks, x, by simp, h5, routeFrom_cons.2 (.inl ⟨_, rfl, h4⟩)⟩
        · obtain ⟨i, is', rfl, h6⟩ := lift h4
          obtain ⟨j, js', rfl, h7⟩ := lift h5
          exact .inr ⟨_, _, x, by simpa using h3, h6, h7⟩
      | false =>
        obtain ⟨b1, b2, b3⟩ := s2
        refine ⟨fun x => ?_, fun is x h => ?_, fun is js x h h' => ?_⟩
        · rw [b1, a1]
          constructor
          · rintro ((h | ⟨is, h⟩) | ⟨is, h⟩)
            · exact .inl h
            · exact .inr ⟨_, routeFrom_cons.2 (.inl ⟨_, rfl, h⟩)⟩
            · obtain ⟨i, js, rfl, g⟩ := lift h; exact .inr ⟨_, g⟩
          · rintro (h | ⟨is, h⟩)
            · exact .inl (.inl h)
            · rcases routeFrom_cons.1 h with ⟨js, rfl, g⟩ | ⟨i, js, rfl, g⟩
              · exact .inl (.inr ⟨_, g⟩)
              · exact .inr ⟨_, g⟩
        · rcases routeFrom_cons.1 h with ⟨js, rfl, g⟩ | ⟨i, js, rfl, g⟩
          · exact a2 _ _ g
          · exact fun hx => b2 _ _ g ((a1 x).2 (.inl hx))
        · rcases routeFrom_cons.1 h with ⟨ks, rfl, g⟩ | ⟨i, ks, rfl, g⟩ <;>
            rcases routeFrom_cons.1 h' with ⟨ls, rfl, g'⟩ | ⟨j, ls, rfl, g'⟩
          · rw [a3 _ _ _ g g']
          · exact absurd ((a1 x).2 (.inr ⟨_, g⟩)) (b2 _ _ g')
          · exact absurd ((a1 x).2 (.inr ⟨_, g'⟩)) (b2 _ _ g)
          · have := b3 _ _ _ g g'
            simp only [List.cons.injEq] at this
            rw [this.1, this.2]

theorem route_cons_iff (inv : GoMap.WF d.edges) {a b : Str} {is : List Nat} :
    Route d a is b ↔ (is = [] ∧ a = b) ∨ RouteFrom d (d.children a) is b := by
  constructor
  · intro h
    cases h with
    | here => exact .inl ⟨rfl, rfl⟩
    | down h1 h2 h3 => exact .inr ⟨_, by rw [children_of_mem inv h1]; exact h2, h3⟩
  · rintro (⟨rfl, rfl⟩ | h)
    · exact .here
    · cases is with
      | nil => simp [RouteFrom] at h
      | cons i is =>
        obtain ⟨c, h1, h2⟩ := h
        exact .down (mem_edges_of_child (List.mem_of_getElem? h1)) h1 h2

theorem dfs_spec (inv : GoMap.WF d.edges) {n : Nat} {c : Str} {V : List Str} {r : Bool × List Str}
    (h : d.dfs n c V = .ok r) : DfsSpec (Route d c) V r := by
  induction n generalizing c V r with
  | zero => cases h
  | succ n ih =>
    unfold dfs at h
    split at h
    · rename_i hc; cases h; exact .inl ⟨[], c, .here, hc⟩
    · rename_i hc
      have s := dfsLoop_spec (d := d) (fun c V r h => ih h) h
      have nonnil : ∀ {is x}, RouteFrom d (d.children c) is x → is ≠ [] := by
        rintro is x h rfl; exact h
      obtain ⟨b, V'⟩ := r
      cases b with
      | true =>
        rcases s with ⟨is, x, h3, h4⟩ | ⟨is, js, x, h3, h4, h5⟩
        · have h6 := (route_cons_iff inv).2 (.inr h3)
          rcases List.mem_append.1 h4 with h4 | h4
          · exact .inl ⟨is, x, h6, h4⟩
          · rw [List.mem_singleton] at h4; subst h4
            exact .inr ⟨is, [], x, nonnil h3, h6, .here⟩
        · exact .inr ⟨is, js, x, h3, (route_cons_iff inv).2 (.inr h4), (route_cons_iff inv).2 (.inr h5)⟩
      | false =>
        obtain ⟨s1, s2, s3⟩ := s
        refine ⟨fun x => ?_, fun is x h => ?_, fun is js x h h' => ?_⟩
        · rw [s1, List.mem_append, List.mem_singleton, or_assoc]
          refine or_congr_right ⟨?_, ?_⟩
          · rintro (rfl | ⟨is, h⟩)
            · exact ⟨[], .here⟩
            · exact ⟨is, (route_cons_iff inv).2 (.inr h)⟩
          · rintro ⟨is, h⟩
            rcases (route_cons_iff inv).1 h with ⟨_, rfl⟩ | h
            · exact .inl rfl
            · exact .inr ⟨is, h⟩
        · rcases (route_cons_iff inv).1 h with ⟨_, rfl⟩ | h
          · exact hc
          · have := s2 _ _ h
            simp only [List.mem_append, not_or] at this
            exact this.1
        · rcases (route_cons_iff inv).1 h with ⟨rfl, rfl⟩ | h <;>
            rcases (route_cons_iff inv).1 h' with ⟨e1, e2⟩ | h'
          · exact e1.symm
          · exact absurd (by simp) (s2 _ _ h')
          · subst e2; exact absurd (by simp) (s2 _ _ h)
          · exact s3 _ _ _ h h'

/-- Names that the check can meet. -/
def names (d : Dag) : List Str := d.edges.flatMap (·.2)

theorem children_names {a c : Str} (h : c ∈ d.children a) : c ∈ d.names :=
  List.mem_flatMap.2 ⟨_, mem_edges_of_child h, h⟩

theorem filter_le {α : Type} {p q : α → Bool} {l : List α} (h : ∀ x ∈ l, p x = true → q x = true) :
    (l.filter p).length ≤ (l.filter q).length := by
  induction l with
  | nil => simp
  | cons a l ih =>
    have ih := ih fun x hx => h x (List.mem_cons_of_mem _ hx)
    have ha := h a (List.mem_cons_self ..)
    cases hp : p a with
    | true => simp [hp, ha hp, ih]
    | false =>
      cases hq : q a with
      | true => simp [hp, hq]; omega
      | false => simp [hp, hq, ih]

theorem filter_lt {α : Type} {p q : α → Bool} {l : List α} (h : ∀ x ∈ l, p x = true → q x = true)
    {a : α} (ha : a ∈ l) (hp : p a = false) (hq : q a = true) : (l.filter p).length < (l.filter q).length := by
  induction l with
  | nil => simp at ha
  | cons b l ih =>
    have hle := filter_le (p := p) (q := q) fun x hx => h x (List.mem_cons_of_mem _ hx)
    rcases List.mem_cons.1 ha with rfl | ha
    · simp [hp, hq]; omega
    · have ih := ih (fun x hx => h x (List.mem_cons_of_mem _ hx)) ha
      have hb := h b (List.mem_cons_self ..)
      cases hpb : p b with
      | true => simp [hpb, hb hpb, ih]
      | false =>
        cases hqb : q b with
        | true => simp [hpb, hqb]; omega
        | false => simp [hpb, hqb, ih]

/-- Unvisited names. -/
def unvisited (N V : List Str) : Nat := (N.filter fun x => decide (x ∉ V)).length

theorem unvisited_mono {N V V' : List Str} (h : ∀ x ∈ V, x ∈ V') : unvisited N V' ≤ unvisited N V :=
  filter_le fun x _ hx => by simp only [decide_eq_true_eq] at *; exact fun hv => hx (h x hv)

theorem unvisited_lt {N V V' : List Str} (h : ∀ x ∈ V, x ∈ V') {a : Str} (ha : a ∈ N) (hv : a ∉ V) (hv' : a ∈ V') :
    unvisited N V' < unvisited N V :=
  filter_lt (fun x _ hx => by simp only [decide_eq_true_eq] at *; exact fun hv => hx (h x hv)) ha (by simp [hv'])
    (by simp [hv])

theorem dfsLoop_total {f : Str → List Str → Out (Bool × List Str)} {cs V : List Str} {k : Nat} {N : List Str}
    (hf : ∀ c ∈ cs, ∀ V, unvisited N V ≤ k → ∃ r, f c V = .ok r ∧ ∀ x ∈ V, x ∈ r.2) (hk : unvisited N V ≤ k) :
    ∃ r, dfsLoop f cs V = .ok r ∧ ∀ x ∈ V, x ∈ r.2 := by
  induction cs generalizing V with
  | nil => exact ⟨_, rfl, fun x h => h⟩
  | cons c cs ih =>
    obtain ⟨⟨b, V1⟩, h1, h2⟩ := hf c (List.mem_cons_self ..) V hk
    unfold dfsLoop
    rw [h1, Out.bind_ok]
    cases b with
    | true => exact ⟨_, rfl, h2⟩
    | false =>
      obtain ⟨r, h3, h4⟩ := ih (fun c hc => hf c (List.mem_cons_of_mem _ hc)) (Nat.le_trans (unvisited_mono h2) hk)
      exact ⟨r, h3, fun x hx => h4 x (h2 x hx)⟩

theorem dfs_total {N : List Str} (hN : ∀ x ∈ d.names, x ∈ N) {n : Nat} {c : Str} (hc : c ∈ N) {V : List Str}
    (h : unvisited N V < n) : ∃ r, d.dfs n c V = .ok r ∧ ∀ x ∈ V, x ∈ r.2 := by
  induction n generalizing c V with
  | zero => omega
  | succ n ih =>
    unfold dfs
    split
    · exact ⟨_, rfl, fun x h => h⟩
    · rename_i hcV
      have hlt : unvisited N (V ++ [c]) < unvisited N V := unvisited_lt (by simp +contextual) hc hcV (by simp)
      obtain ⟨r, h1, h2⟩ := dfsLoop_total (f := d.dfs n) (cs := d.children c) (V := V ++ [c]) (N := N) (k := n - 1)
        (fun c' hc' V' hV' => ih (hN _ (children_names hc')) (by omega)) (by omega)
      exact ⟨r, h1, fun x hx => h2 x (by simp [hx])⟩

theorem checkCircular_total (d : Dag) (parent : Str) (cs : List Str) :
    ∃ n, ∀ m ≥ n, ∃ b, d.checkCircular m parent cs = .ok b := by
  refine ⟨(cs ++ d.names).length + 1, fun m hm => ?_⟩
  obtain ⟨r, h, _⟩ := dfsLoop_total (f := d.dfs m) (cs := cs) (V := [parent]) (N := cs ++ d.names)
    (k := (cs ++ d.names).length)
    (fun c hc V hV => dfs_total (N := cs ++ d.names) (by simp +contextual) (by simp [hc]) (by omega))
    (List.length_filter_le ..)
  exact ⟨r.1, by unfold checkCircular; rw [h]; rfl⟩

/-! ### Resolution -/

/-- Sum of the child counts of the roles not yet visited. -/
def pending (E : GoMap Str (List Str)) (V : List Str) : Nat :=
  ((E.filter fun e => decide (e.1 ∉ V)).map fun e => e.2.length).sum

theorem pending_notin {E : GoMap Str (List Str)} {V : List Str} {c : Str} (h : c ∉ E.map (·.1)) :
    pending E (V ++ [c]) = pending E V := by
  unfold pending
  congr 2
  apply List.filter_congr
  intro e he
  have : e.1 ≠ c := fun e' => h (e' ▸ List.mem_map.2 ⟨e, he, rfl⟩)
  simp [this]

theorem pending_visit {E : GoMap Str (List Str)} (wf : GoMap.WF E) {V : List Str} {c : Str} (hc : c ∉ V) :
    pending E (V ++ [c]) + ((E.get c).getD []).length = pending E V := by
  induction E with
  | nil => rfl
  | cons e E ih =>
    obtain ⟨k, cs⟩ := e
    simp only [GoMap.WF, List.map_cons, List.nodup_cons] at wf
    by_cases hk : k = c
    · subst hk
      have h1 : pending ((k, cs) :: E) (V ++ [k]) = pending E (V ++ [k]) := by simp [pending]
      have h2 : pending ((k, cs) :: E) V = cs.length + pending E V := by simp [pending, hc]
      rw [h1, h2, pending_notin wf.1]
      simp [GoMap.get]; omega
    · have hg : GoMap.get ((k, cs) :: E) c = GoMap.get E c := by simp [GoMap.get, hk]
      rw [hg]
      have ih := ih wf.2
      by_cases hv : k ∈ V
      · have h1 : pending ((k, cs) :: E) (V ++ [c]) = pending E (V ++ [c]) := by simp [pending, hv]
        have h2 : pending ((k, cs) :: E) V = pending E V := by simp [pending, hv]
        rw [h1, h2, ih]
      · have h1 : pending ((k, cs) :: E) (V ++ [c]) = cs.length + pending E (V ++ [c]) := by simp [pending, hv, hk]
        have h2 : pending ((k, cs) :: E) V = cs.length + pending E V := by simp [pending, hv]
        rw [h1, h2, ← ih]; omega

theorem bfs_total (inv : DInv d) (emit : R2 → List Str) {n : Nat} {q V res : List Str}
    (h : q.length + pending d.edges V ≤ n) : ∃ s, d.bfs emit n q V res = .ok s := by
  induction n generalizing q V res with
  | zero =>
    cases q with
    | nil => exact ⟨res, rfl⟩
    | cons c q => simp at h
  | succ n ih =>
    cases q with
    | nil => exact ⟨res, rfl⟩
    | cons c q =>
      rw [List.length_cons] at h
      unfold bfs
      split
      · exact ih (by omega)
      · rename_i hc
        have hp := pending_visit inv.edgesWF hc
        split
        · exact ih (by omega)
        · rename_i a ha
          obtain ⟨o, ho, _⟩ := inv.keyed _ _ (GoMap.get_some_mem ha)
          rw [ho]
          refine ih ?_
          rw [List.length_append]
          unfold children
          omega

/-- Contribution of a role name. -/
def Emits (d : Dag) (emit : R2 → List Str) (r x : Str) : Prop :=
  ∃ a o, (r, a) ∈ d.roles ∧ d.objs[a]? = some o ∧ x ∈ emit o

theorem _root_.Verif.Spec.Below.registered {r b : Str} (h : Below d r b) : Registered d b := by
  cases h <;> assumption

structure BfsInv (d : Dag) (emit : R2 → List Str) (r : Str) (q V res : List Str) : Prop where
  start : r ∈ V ∨ r ∈ q
  sound : ∀ x, x ∈ V ∨ x ∈ q → Registered d x → Below d r x
  closed : ∀ a ∈ V, Registered d a → ∀ b, Edge d a b → b ∈ V ∨ b ∈ q
  res : ∀ x, x ∈ res ↔ ∃ a ∈ V, Emits d emit a x

theorem bfs_spec (inv : DInv d) {emit : R2 → List Str} {r : Str} {n : Nat} {q V res s : List Str}
    (hi : BfsInv d emit r q V res) (h : d.bfs emit n q V res = .ok s) (x : Str) :
    x ∈ s ↔ ∃ b, Below d r b ∧ Emits d emit b x := by
  have fin : ∀ {V res}, BfsInv d emit r [] V res → (x ∈ res ↔ ∃ b, Below d r b ∧ Emits d emit b x) := by
    intro V res hi
    have all : ∀ b, Below d r b → b ∈ V := by
      intro b hb
      induction hb with
      | self _ => simpa using hi.start
      | step h1 h2 _ ih =>
        simpa using hi.closed _ ih h1.registered _ h2
    rw [hi.res]
    constructor
    · rintro ⟨a, h1, h2⟩
      obtain ⟨i, o, h3, h4⟩ := h2
      exact ⟨a, hi.sound a (.inl h1) ⟨i, h3⟩, i, o, h3, h4⟩
    · rintro ⟨b, h1, h2⟩; exact ⟨b, all b h1, h2⟩
  induction n generalizing q V res with
  | zero =>
    cases q with
    | nil => cases h; exact fin hi
    | cons c q => cases h
  | succ n ih =>
    cases q with
    | nil => cases h; exact fin hi
    | cons c q =>
      unfold bfs at h
      split at h
      · rename_i hc
        refine ih ⟨?_, ?_, ?_, hi.res⟩ h
        · rcases hi.start with h | h
          · exact .inl h
          · rcases List.mem_cons.1 h with rfl | h
            · exact .inl hc
            · exact .inr h
        · exact fun x hx => hi.sound x (hx.imp_right (List.mem_cons_of_mem _))
        · intro a ha hr b hb
          rcases hi.closed a ha hr b hb with h | h
          · exact .inl h
          · rcases List.mem_cons.1 h with rfl | h
            · exact .inl hc
            · exact .inr h
      · rename_i hc
        split at h
        · rename_i hg
          have hnr : ¬ Registered d c := by
            rintro ⟨a, ha⟩
            rw [(GoMap.mem_iff_get inv.rolesWF).1 ha] at hg; cases hg
          have hne : ∀ x, ¬ Emits d emit c x := fun x ⟨a, o, h1, _⟩ => hnr ⟨a, h1⟩
          refine ih ⟨?_, ?_, ?_, ?_⟩ h
          · rcases hi.start with h | h
            · exact .inl (by simp [h])
            · rcases List.mem_cons.1 h with rfl | h
              · exact .inl (by simp)
              · exact .inr h
          · rintro x (hx | hx) hr
            · rcases List.mem_append.1 hx with hx | hx
              · exact hi.sound x (.inl hx) hr
              · rw [List.mem_singleton] at hx; exact absurd (hx ▸ hr) hnr
            · exact hi.sound x (.inr (List.mem_cons_of_mem _ hx)) hr
          · intro a ha hr b hb
            rcases List.mem_append.1 ha with ha | ha
            · rcases hi.closed a ha hr b hb with h | h
              · exact .inl (by simp [h])
              · rcases List.mem_cons.1 h with rfl | h
                · exact .inl (by simp)
                · exact .inr h
            · rw [List.mem_singleton] at ha; exact absurd (ha ▸ hr) hnr
          · intro x
            rw [hi.res]
            constructor
            · rintro ⟨a, h1, h2⟩; exact ⟨a, by simp [h1], h2⟩
            · rintro ⟨a, h1, h2⟩
              rcases List.mem_append.1 h1 with h1 | h1
              · exact ⟨a, h1, h2⟩
              · rw [List.mem_singleton] at h1; exact absurd (h1 ▸ h2) (hne x)
        · rename_i a ha
          have hm := GoMap.get_some_mem ha
          obtain ⟨o, ho, hname⟩ := inv.keyed _ _ hm
          rw [ho] at h
          have hreg : Registered d c := ⟨a, hm⟩
          have hem : ∀ x, Emits d emit c x ↔ x ∈ emit o := by
            intro x
            constructor
            · rintro ⟨a', o', h1, h2, h3⟩
              have := (GoMap.mem_iff_get inv.rolesWF).1 h1
              rw [ha] at this; cases this
              rw [ho] at h2; cases h2; exact h3
            · exact fun h => ⟨a, o, hm, ho, h⟩
          have hU := hi.sound c (.inr (List.mem_cons_self ..)) hreg
          refine ih ⟨?_, ?_, ?_, ?_⟩ h
          · rcases hi.start with h | h
            · exact .inl (by simp [h])
            · rcases List.mem_cons.1 h with rfl | h
              · exact .inl (by simp)
              · exact .inr (by simp [h])
          · rintro x (hx | hx) hr
            · rcases List.mem_append.1 hx with hx | hx
              · exact hi.sound x (.inl hx) hr
              · rw [List.mem_singleton] at hx; exact hx ▸ hU
            · rcases List.mem_append.1 hx with hx | hx
              · exact hi.sound x (.inr (List.mem_cons_of_mem _ hx)) hr
              · exact .step hU ((edge_iff inv.edgesWF).2 hx) hr
          · intro a ha hr b hb
            rcases List.mem_append.1 ha with ha | ha
            · rcases hi.closed a ha hr b hb with h | h
              · exact .inl (by simp [h])
              · rcases List.mem_cons.1 h with rfl | h
                · exact .inl (by simp)
                · exact .inr (by simp [h])
            · rw [List.mem_singleton] at ha; subst ha
              exact .inr (by simp [(edge_iff inv.edgesWF).1 hb])
          · intro x
            rw [mem_addStrs, hi.res]
            constructor
            · rintro (⟨a, h1, h2⟩ | h1)
              · exact ⟨a, by simp [h1], h2⟩
              · exact ⟨c, by simp, (hem x).2 h1⟩
            · rintro ⟨a, h1, h2⟩
              rcases List.mem_append.1 h1 with h1 | h1
              · exact .inl ⟨a, h1, h2⟩
              · rw [List.mem_singleton] at h1; subst h1; exact .inr ((hem x).1 h2)

theorem bfs_start (d : Dag) (emit : R2 → List Str) (r : Str) : BfsInv d emit r [r] [] [] :=
  ⟨.inr (by simp), fun x hx hr => by
    simp only [List.not_mem_nil, false_or, List.mem_singleton] at hx; exact hx ▸ .self (hx ▸ hr),
   fun a ha => by simp at ha, fun x => by simp⟩

/-- What resolving `r` yields in `d`. -/
def Resolves (d : Dag) (emit : R2 → List Str) (r x : Str) : Prop :=
  (∃ s, (r, s) ∈ d.resolved ∧ x ∈ s) ∨ ((∀ s, (r, s) ∉ d.resolved) ∧ ∃ b, Below d r b ∧ Emits d emit b x)

theorem resolve_total (inv : DInv d) (emit : R2 → List Str) {fuel : Nat} (h : 1 + pending d.edges [] ≤ fuel) (r : Str) :
    ∃ y, d.resolve emit fuel r = .ok y := by
  unfold resolve
  split
  · exact ⟨_, rfl⟩
  · obtain ⟨s, hs⟩ := bfs_total inv emit (q := [r]) (V := []) (res := []) (n := fuel) (by simpa using h)
    rw [hs]; exact ⟨_, rfl⟩

/-- The graphs agree but for the cache. -/
def SameBut (d d' : Dag) : Prop := d'.objs = d.objs ∧ d'.roles = d.roles ∧ d'.edges = d.edges

theorem SameBut.refl (d : Dag) : SameBut d d := ⟨rfl, rfl, rfl⟩
theorem SameBut.trans {d1 d2 d3 : Dag} (h1 : SameBut d1 d2) (h2 : SameBut d2 d3) : SameBut d1 d3 :=
  ⟨h2.1.trans h1.1, h2.2.1.trans h1.2.1, h2.2.2.trans h1.2.2⟩

theorem SameBut.under (h : SameBut d d') {r b : Str} : Below d' r b ↔ Below d r b := by
  obtain ⟨h1, h2, h3⟩ := h
  have hr : ∀ x, Registered d' x ↔ Registered d x := fun x => by unfold Registered; rw [h2]
  have he : ∀ x y, Edge d' x y ↔ Edge d x y := fun x y => by unfold Edge; rw [h3]
  constructor <;> intro h
  · induction h with
    | self h => exact .self ((hr _).1 h)
    | step _ h2 h3 ih => exact .step ih ((he _ _).1 h2) ((hr _).1 h3)
  · induction h with
    | self h => exact .self ((hr _).2 h)
    | step _ h2 h3 ih => exact .step ih ((he _ _).2 h2) ((hr _).2 h3)

theorem SameBut.emits (h : SameBut d d') {emit : R2 → List Str} {r x : Str} : Emits d' emit r x ↔ Emits d emit r x := by
  unfold Emits; rw [h.1, h.2.1]

theorem resolve_spec (inv : DInv d) {emit : R2 → List Str} {fuel : Nat} {r : Str} {s : List Str}
    (h : d.resolve emit fuel r = .ok (s, d')) :
    (∀ x, x ∈ s ↔ Resolves d emit r x) ∧ DInv d' ∧ SameBut d d' ∧ (∀ r x, Resolves d' emit r x ↔ Resolves d emit r x) ∧
      ∀ e ∈ d.resolved, e ∈ d'.resolved := by
  unfold resolve at h
  split at h
  · rename_i s' hs
    cases h
    have hm := GoMap.get_some_mem hs
    refine ⟨fun x => ⟨fun h => .inl ⟨s, hm, h⟩, ?_⟩, inv, .refl _, fun _ _ => Iff.rfl, fun e h => h⟩
    rintro (⟨s2, h1, h2⟩ | ⟨h1, _⟩)
    · rw [(GoMap.mem_iff_get inv.resolvedWF).1 h1] at hs; cases hs; exact h2
    · exact absurd hm (h1 s)
  · rename_i hs
    obtain ⟨s', h1, h2⟩ := Out.map_eq_ok.1 h
    cases h2
    have hno : ∀ s, (r, s) ∉ d.resolved := fun s hm => by
      rw [(GoMap.mem_iff_get inv.resolvedWF).1 hm] at hs; cases hs
    have spec := bfs_spec inv (bfs_start d emit r) h1
    have same : SameBut d { d with resolved := d.resolved.set r s } := ⟨rfl, rfl, rfl⟩
    have hset : ∀ e : Str × List Str, e ∈ d.resolved.set r s ↔ e = (r, s) ∨ e.1 ≠ r ∧ e ∈ d.resolved :=
      fun e => GoMap.mem_set_iff inv.resolvedWF
    refine ⟨fun x => ?_, ⟨inv.rolesWF, inv.edgesWF, GoMap.wf_set inv.resolvedWF .., inv.keyed, inv.perms⟩, same,
      fun q x => ?_, fun e he => (hset e).2 (.inr ⟨fun h => hno e.2 (h ▸ he), he⟩)⟩
    · rw [spec]
      constructor
      · exact fun h => .inr ⟨hno, h⟩
      · rintro (⟨s2, h1, _⟩ | ⟨_, h⟩)
        · exact absurd h1 (hno s2)
        · exact h
    · unfold Resolves
      have hU : (∃ b, Below { d with resolved := d.resolved.set r s } q b ∧
          Emits { d with resolved := d.resolved.set r s } emit b x) ↔ ∃ b, Below d q b ∧ Emits d emit b x := by
        simp only [same.under, same.emits]
      rw [hU]
      simp only [hset]
      by_cases hq : q = r
      · subst hq
        have : (∃ s2, (q, s2) = (q, s) ∨ q ≠ q ∧ (q, s2) ∈ d.resolved) := ⟨s, .inl rfl⟩
        constructor
        · rintro (⟨s2, h1 | h1, h2⟩ | ⟨h1, _⟩)
          · cases h1; exact .inr ⟨hno, (spec x).1 h2⟩
          · exact absurd rfl h1.1
          · exact absurd (.inl rfl) (h1 s)
        · rintro (⟨s2, h1, _⟩ | ⟨_, h⟩)
          · exact absurd h1 (hno s2)
          · exact .inl ⟨s, .inl rfl, (spec x).2 h⟩
      · have hne : ∀ s2, ¬ ((q, s2) = (r, s)) := fun s2 h => hq (by cases h; rfl)
        simp [hq, hne]

end Dag
end Verif
