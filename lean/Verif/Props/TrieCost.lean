import Mathlib.Data.List.Forall2
import Mathlib.Data.List.Perm.Subperm
import Mathlib.Data.List.Perm.Basic
import Verif.Model.TrieCost
import Verif.Lemmas.AuthAlone
import Verif.Props.Trie

/-!
# C132: what a search of the row store costs
-/

namespace Verif
open Spec
variable {T : Type}

namespace TrieCost

/-- The rows passed to the callback. -/
def tested (l : List (List Val × Option T)) : List T := l.filterMap (·.2)

theorem tested_append (l m : List (List Val × Option T)) : tested (l ++ m) = tested l ++ tested m := by
  simp [tested]

theorem tested_perm {l m : List (List Val × Option T)} (p : l.Perm m) : (tested l).Perm (tested m) := p.filterMap _

mutual
/-- Every node with its path and row, in storage order. -/
def Node.all (pos : List Val) : Node T → List (List Val × Option T)
  | .mk d ch => (pos, d) :: Forest.all pos ch
def Forest.all (pos : List Val) : Forest T → List (List Val × Option T)
  | .nil => []
  | .cons k n rest => Node.all (pos ++ [k]) n ++ Forest.all pos rest
end

/-- The calls `l` of a visit of the nodes `A`, and its answer `b`: all nodes are visited and, if the search stops at a
match, there is none; or the search stops at the last call, at the first match. -/
def Ended (cb : T → Bool) (stop : Bool) (A l : List (List Val × Option T)) (b : Bool) : Prop :=
  (b = false ∧ l.Perm A ∧ (stop = true → ∀ x ∈ tested l, cb x = false)) ∨
  (b = true ∧ stop = true ∧ l.Subperm A ∧
    ∃ l0 p x, l = l0 ++ [(p, some x)] ∧ cb x = true ∧ ∀ y ∈ tested l0, cb y = false)

/-- `v` visits the nodes `A`. -/
def Good (cb : T → Bool) (stop : Bool) (A : List (List Val × Option T)) (v : Trail T → Bool × Trail T) : Prop :=
  ∀ s, ∃ l b, v s = (b, ⟨s.res ++ (tested l).filter cb, s.log ++ l⟩) ∧ Ended cb stop A l b

theorem runTrails_good {cb : T → Bool} {stop : Bool} {As : List (List (List Val × Option T))}
    {vs : List (Trail T → Bool × Trail T)} (h : List.Forall₂ (Good cb stop) As vs) :
    Good cb stop As.flatten (runTrails vs) := by
  induction h with
  | nil => intro s; exact ⟨[], false, by simp [runTrails, tested], .inl ⟨rfl, by simp, by simp [tested]⟩⟩
  | @cons A v As vs hv _ ih =>
    intro s
    obtain ⟨l, b, e, en⟩ := hv s
    rw [runTrails, e]
    cases b with
    | true =>
      rcases en with ⟨h, _⟩ | ⟨_, hs, sub, rest⟩
      · cases h
      · refine ⟨l, true, rfl, .inr ⟨rfl, hs, sub.trans ?_, rest⟩⟩
        rw [List.flatten_cons]
        exact (List.sublist_append_left _ _).subperm
    | false =>
      rcases en with ⟨_, pm, no⟩ | ⟨h, _⟩
      · obtain ⟨l2, b2, e2, en2⟩ := ih ⟨s.res ++ (tested l).filter cb, s.log ++ l⟩
        refine ⟨l ++ l2, b2, ?_, ?_⟩
        · simp only [e2, tested_append, List.filter_append, List.append_assoc]
        · rw [List.flatten_cons]
          rcases en2 with ⟨rfl, pm2, no2⟩ | ⟨rfl, hs, sub2, l0, p, x, rfl, hx, h0⟩
          · refine .inl ⟨rfl, pm.append pm2, fun hs x hx => ?_⟩
            rw [tested_append, List.mem_append] at hx
            exact hx.elim (no hs x) (no2 hs x)
          · refine .inr ⟨rfl, hs, (pm.subperm).append sub2, l ++ l0, p, x, by simp, hx, fun y hy => ?_⟩
            rw [tested_append, List.mem_append] at hy
            exact hy.elim (no hs y) (h0 y)
      · cases h

/-- The visits may be run in any order. -/
theorem runTrails_perm {cb : T → Bool} {stop : Bool} {As : List (List (List Val × Option T))}
    {vs vs' : List (Trail T → Bool × Trail T)} (h : List.Forall₂ (Good cb stop) As vs) (pm : vs'.Perm vs) :
    Good cb stop As.flatten (runTrails vs') := by
  obtain ⟨As', h', pm'⟩ := List.perm_comp_forall₂ pm h.flip
  have g := runTrails_good (As := As') h'.flip
  intro s
  obtain ⟨l, b, e, en⟩ := g s
  refine ⟨l, b, e, ?_⟩
  rcases en with ⟨hb, p, no⟩ | ⟨hb, hs, sub, rest⟩
  · exact .inl ⟨hb, p.trans pm'.flatten, no⟩
  · exact .inr ⟨hb, hs, sub.trans pm'.flatten.subperm, rest⟩

mutual
theorem Node.dfsL_good (o : Ord) (site : List Val) (cb : T → Bool) (stop : Bool) (pos : List Val) (n : Node T) :
    Good cb stop (Node.all pos n) (n.dfsL o site cb stop pos) := by
  cases n with
  | mk d ch =>
    obtain ⟨As, h, eq⟩ := Forest.trails_good o site cb stop pos ch
    have g : Good cb stop (Forest.all pos ch)
        (runTrails (o.ord (site ++ .nil :: pos) _ (ch.trails o site cb stop pos))) := by
      rw [← eq]; exact runTrails_perm h (o.perm _ _ _)
    intro s
    rw [Node.dfsL, Node.all]
    have go : ∀ s' : Trail T, s'.log = s.log ++ [(pos, d)] →
        s'.res = s.res ++ (tested [(pos, d)]).filter cb →
        (stop = true → ∀ x ∈ tested [(pos, d)], cb x = false) →
        ∃ l b, runTrails (o.ord (site ++ .nil :: pos) _ (ch.trails o site cb stop pos)) s' =
            (b, ⟨s.res ++ (tested l).filter cb, s.log ++ l⟩) ∧ Ended cb stop ((pos, d) :: Forest.all pos ch) l b := by
      intro s' h1 h2 no
      obtain ⟨l, b, e, en⟩ := g s'
      refine ⟨(pos, d) :: l, b, ?_, ?_⟩
      · rw [e, h1, h2, show (pos, d) :: l = [(pos, d)] ++ l from rfl, tested_append, List.filter_append]
        simp
      · rcases en with ⟨rfl, p, no2⟩ | ⟨rfl, hs, sub, l0, p, x, rfl, hx, h0⟩
        · refine .inl ⟨rfl, p.cons _, fun hs x hx => ?_⟩
          rw [show (pos, d) :: l = [(pos, d)] ++ l from rfl, tested_append, List.mem_append] at hx
          exact hx.elim (no hs x) (no2 hs x)
        · refine .inr ⟨rfl, hs, (List.subperm_cons _).2 sub, (pos, d) :: l0, p, x, by simp, hx, fun y hy => ?_⟩
          rw [show (pos, d) :: l0 = [(pos, d)] ++ l0 from rfl, tested_append, List.mem_append] at hy
          exact hy.elim (no hs y) (h0 y)
    cases d with
    | none => exact go _ rfl (by simp [tested]) (by simp [tested])
    | some x =>
      by_cases hx : cb x = true
      · cases stop with
        | true =>
          refine ⟨[(pos, some x)], true, by simp [hx, tested], .inr ⟨rfl, rfl, ?_, [], pos, x, rfl, hx, by simp [tested]⟩⟩
          exact List.Sublist.subperm (by simp)
        | false =>
          simp only [hx, if_true, Bool.false_eq_true, if_false]
          exact go _ rfl (by simp [tested, hx]) (by simp)
      · simp only [hx, Bool.false_eq_true, if_false]
        exact go _ rfl (by simp [tested, hx]) (fun _ => by simpa [tested] using hx)
theorem Forest.trails_good (o : Ord) (site : List Val) (cb : T → Bool) (stop : Bool) (pos : List Val) (f : Forest T) :
    ∃ As, List.Forall₂ (Good cb stop) As (f.trails o site cb stop pos) ∧ As.flatten = Forest.all pos f := by
  cases f with
  | nil => exact ⟨[], by simp [Forest.trails], rfl⟩
  | cons k n rest =>
    obtain ⟨As, h, eq⟩ := Forest.trails_good o site cb stop pos rest
    refine ⟨Node.all (pos ++ [k]) n :: As, ?_, by rw [List.flatten_cons, eq, Forest.all]⟩
    rw [Forest.trails]
    exact .cons (Node.dfsL_good o site cb stop (pos ++ [k]) n) h
end

/-- `a` does what `b` does. -/
def Erases (a : Trail T → Bool × Trail T) (b : List T → Bool × List T) : Prop :=
  ∀ s, ((a s).1, (a s).2.res) = b s.res

theorem runTrails_erases : {L : List ((Trail T → Bool × Trail T) × (List T → Bool × List T))} →
    (∀ q ∈ L, Erases q.1 q.2) → Erases (runTrails (L.map (·.1))) (runVisits (L.map (·.2)))
  | [], _, s => rfl
  | q :: L, h, s => by
    have h1 := h q (by simp) s
    have h2 := runTrails_erases (L := L) (fun q' hq => h q' (by simp [hq]))
    rw [List.map_cons, List.map_cons, runTrails, runVisits, ← h1]
    cases e : q.1 s with
    | mk b s' =>
      cases b
      · exact h2 s'
      · rfl

mutual
theorem Node.dfsL_erases {o : Ord} (nat : o.Natural) (site : List Val) (cb : T → Bool) (stop : Bool) (pos : List Val) (n : Node T) :
    Erases (n.dfsL o site cb stop pos) (n.dfs o cb stop (site ++ .nil :: pos)) := by
  cases n with
  | mk d ch =>
    obtain ⟨L, e1, e2, h⟩ := Forest.trails_erases nat site cb stop pos ch
    have g : Erases (runTrails (o.ord (site ++ .nil :: pos) _ (ch.trails o site cb stop pos)))
        (runVisits (o.ord (site ++ .nil :: pos) _ (ch.visits o cb stop (site ++ .nil :: pos)))) := by
      rw [e1, e2, nat, nat]
      exact runTrails_erases fun q hq => h q (Ord.mem_ord.1 hq)
    intro s
    rw [Node.dfsL, Node.dfs]
    cases d with
    | none => exact g _
    | some x =>
      by_cases hx : cb x = true
      · cases stop
        · simp only [hx, if_true, Bool.false_eq_true, if_false]; exact g _
        · simp [hx]
      · simp only [hx, Bool.false_eq_true, if_false]; exact g _
theorem Forest.trails_erases {o : Ord} (nat : o.Natural) (site : List Val) (cb : T → Bool) (stop : Bool) (pos : List Val) (f : Forest T) :
    ∃ L : List ((Trail T → Bool × Trail T) × (List T → Bool × List T)),
      f.trails o site cb stop pos = L.map (·.1) ∧ f.visits o cb stop (site ++ .nil :: pos) = L.map (·.2) ∧
      ∀ q ∈ L, Erases q.1 q.2 := by
  cases f with
  | nil => exact ⟨[], rfl, rfl, by simp⟩
  | cons k n rest =>
    obtain ⟨L, e1, e2, h⟩ := Forest.trails_erases nat site cb stop pos rest
    have hn := Node.dfsL_erases nat site cb stop (pos ++ [k]) n
    refine ⟨(n.dfsL o site cb stop (pos ++ [k]), n.dfs o cb stop (site ++ .nil :: pos ++ [k])) :: L, ?_, ?_, ?_⟩
    · rw [Forest.trails, e1, List.map_cons]
    · rw [Forest.visits, e2, List.map_cons]
    · intro q hq
      rcases List.mem_cons.1 hq with rfl | hq
      · simpa using hn
      · exact h q hq
end

/-- There is a node at this path. -/
def Node.has : List Val → Node T → Bool
  | [], _ => true
  | k :: ks, .mk _ ch =>
    match ch.get k with
    | none => false
    | some n => Node.has ks n

theorem Node.has_new (p : List Val) : Node.has p (.new : Node T) = true ↔ p = [] := by
  cases p <;> simp [Node.has, Node.new, Forest.get]

theorem Node.has_insert (x : T) (ks p : List Val) (n : Node T) :
    Node.has p (n.insert x ks) = true ↔ p <+: strip ks ∨ Node.has p n = true := by
  induction ks generalizing n p with
  | nil =>
    cases n with
    | mk d ch => cases p <;> simp [Node.insert, Node.has, strip]
  | cons k ks ih =>
    cases n with
    | mk d ch =>
      rw [Node.insert]
      by_cases hk : k = .nil
      · rw [if_pos hk, ih]; simp [strip, hk]
      · rw [if_neg hk]
        have hs : strip (k :: ks) = k :: strip ks := by simp [strip, hk]
        rw [hs]
        cases p with
        | nil => simp [Node.has]
        | cons a p =>
          simp only [Node.has, Forest.get_set]
          by_cases ha : k = a
          · subst ha
            simp only [if_true, ih, List.cons_prefix_cons, true_and]
            cases hg : ch.get k with
            | none =>
              simp only [Option.getD_none, Node.has_new, Bool.false_eq_true, or_false]
              constructor
              · rintro (h | rfl)
                · exact h
                · exact List.nil_prefix
              · exact .inl
            | some c => simp
          · simp only [ha, if_false, List.cons_prefix_cons]
            constructor
            · exact .inr
            · rintro (⟨h, _⟩ | h)
              · exact absurd h.symm ha
              · exact h

mutual
theorem Node.mem_all (n : Node T) (h : n.WF) (pos q : List Val) (d : Option T) :
    (q, d) ∈ Node.all pos n ↔ ∃ p, q = pos ++ p ∧ Node.has p n = true ∧ n.find p = d := by
  cases n with
  | mk d0 ch =>
    rw [Node.WF] at h
    rw [Node.all, List.mem_cons, Forest.mem_all ch h.2 h.1 pos q d]
    constructor
    · rintro (e | ⟨k, ks, n, rfl, hg, hh, hf⟩)
      · cases e; exact ⟨[], by simp, rfl, rfl⟩
      · exact ⟨k :: ks, rfl, by rw [Node.has, hg]; exact hh, by rw [Node.find, hg]; exact hf⟩
    · rintro ⟨p, rfl, hh, hf⟩
      cases p with
      | nil => left; simp [Node.find] at hf; simp [hf]
      | cons k ks =>
        right
        rw [Node.has] at hh
        rw [Node.find] at hf
        cases hg : ch.get k with
        | none => simp [hg] at hh
        | some n => simp only [hg] at hh hf; exact ⟨k, ks, n, rfl, hg, hh, hf⟩
theorem Forest.mem_all (f : Forest T) (h : f.WF) (hn : f.keys.Nodup) (pos q : List Val) (d : Option T) :
    (q, d) ∈ Forest.all pos f ↔
      ∃ k ks n, q = pos ++ k :: ks ∧ f.get k = some n ∧ Node.has ks n = true ∧ n.find ks = d := by
  cases f with
  | nil => simp [Forest.all, Forest.get]
  | cons a c rest =>
    rw [Forest.WF] at h
    rw [Forest.keys, List.nodup_cons] at hn
    rw [Forest.all, List.mem_append, Forest.mem_all rest h.2.2 hn.2 pos q d, Node.mem_all c h.2.1 (pos ++ [a]) q d]
    constructor
    · rintro (⟨p, rfl, hh, hf⟩ | ⟨k, ks, n, rfl, hg, hh, hf⟩)
      · exact ⟨a, p, c, by simp, by simp [Forest.get], hh, hf⟩
      · refine ⟨k, ks, n, rfl, ?_, hh, hf⟩
        rw [Forest.get, if_neg (fun (e : a = k) => hn.1 (e ▸ Forest.mem_keys_of_get hg))]
        exact hg
    · rintro ⟨k, ks, n, rfl, hg, hh, hf⟩
      rw [Forest.get] at hg
      split at hg
      · rename_i e; subst e; cases hg
        exact .inl ⟨ks, by simp, hh, hf⟩
      · exact .inr ⟨k, ks, n, rfl, hg, hh, hf⟩
end

mutual
theorem Node.all_nodup (n : Node T) (h : n.WF) (pos : List Val) : ((Node.all pos n).map (·.1)).Nodup := by
  cases n with
  | mk d ch =>
    rw [Node.WF] at h
    rw [Node.all, List.map_cons, List.nodup_cons]
    refine ⟨?_, Forest.all_nodup ch h.2 h.1 pos⟩
    rw [List.mem_map]
    rintro ⟨⟨q, d'⟩, hm, e⟩
    obtain ⟨k, ks, n, e2, _⟩ := (Forest.mem_all ch h.2 h.1 pos q d').1 hm
    simp only at e
    rw [e2] at e
    simp at e
theorem Forest.all_nodup (f : Forest T) (h : f.WF) (hn : f.keys.Nodup) (pos : List Val) :
    ((Forest.all pos f).map (·.1)).Nodup := by
  cases f with
  | nil => simp [Forest.all]
  | cons a c rest =>
    rw [Forest.WF] at h
    rw [Forest.keys, List.nodup_cons] at hn
    rw [Forest.all, List.map_append, List.nodup_append]
    refine ⟨Node.all_nodup c h.2.1 _, Forest.all_nodup rest h.2.2 hn.2 pos, ?_⟩
    intro p hp q hq e
    subst e
    obtain ⟨⟨p1, d1⟩, h1, rfl⟩ := List.mem_map.1 hp
    obtain ⟨⟨p2, d2⟩, h2, e⟩ := List.mem_map.1 hq
    obtain ⟨r, e1, _⟩ := (Node.mem_all c h.2.1 _ p1 d1).1 h1
    obtain ⟨k, ks, n, e2, hg, _⟩ := (Forest.mem_all rest h.2.2 hn.2 pos p2 d2).1 h2
    simp only at e
    rw [e1, e2] at e
    simp at e
    exact hn.1 (e.1 ▸ Forest.mem_keys_of_get hg)
end

mutual
theorem Node.tested_all (n : Node T) (pos : List Val) : tested (Node.all pos n) = n.entries.map (·.2) := by
  cases n with
  | mk d ch =>
    have := Forest.tested_all ch pos
    rw [Node.all, Node.entries, List.map_append, ← this]
    cases d <;> simp [tested]
theorem Forest.tested_all (f : Forest T) (pos : List Val) : tested (Forest.all pos f) = f.entries.map (·.2) := by
  cases f with
  | nil => simp [Forest.all, tested, Forest.entries]
  | cons k n rest =>
    rw [Forest.all, Forest.entries, tested_append, Forest.tested_all rest, Node.tested_all n]
    simp [List.map_map, Function.comp_def]
end

theorem has_insertAll {keys : T → Option (List Val)} {t t' : Trie T} {hist : List (Option T)}
    (hk : t.keys = keys) (h : insertAll t hist = .ok t') (p : List Val) :
    Node.has p t'.root = true ↔ (∃ x ∈ hist.filterMap id, p <+: rowKey keys x) ∨ Node.has p t.root = true := by
  induction hist generalizing t with
  | nil => simp [insertAll] at h; subst h; simp
  | cons d ds ih =>
    rw [insertAll, Out.bind_eq_ok] at h
    obtain ⟨t1, h1, h2⟩ := h
    cases d with
    | none => simp [Trie.insert] at h1; subst h1; simpa using ih hk h2
    | some x =>
      rw [Trie.insert] at h1
      simp only [hk] at h1
      cases hx : keys x with
      | none => simp [hx] at h1
      | some ks =>
        simp only [hx, Out.ok.injEq] at h1
        subst h1
        rw [ih rfl h2, Node.has_insert]
        have : strip ks = rowKey keys x := by simp [strip, rowKey, hx]
        rw [this]
        simp only [List.filterMap_cons, id, List.mem_cons]
        constructor
        · rintro (⟨y, hy, h⟩ | h | h)
          · exact .inl ⟨y, .inr hy, h⟩
          · exact .inl ⟨x, .inl rfl, h⟩
          · exact .inr h
        · rintro (⟨y, rfl | hy, h⟩ | h)
          · exact .inr (.inl h)
          · exact .inl ⟨y, hy, h⟩
          · exact .inr (.inr h)

end TrieCost
open TrieCost

/-- Rows `a b`, `a c`, `a nil` and once more `a b`, stored under their elements. -/
def TrieCost.ex : List (Option (List Val)) :=
  [some [.int 1, .int 2], some [.int 1, .int 3], none, some [.int 1, .nil], some [.int 1, .int 2]]

/-- Four nodes (the root, `a`, `a b`, `a c`), three rows; the search for the first row ending in `c` stops before `a b` if
`a c` comes first, and not otherwise. -/
example : (insertAll (Trie.new (fun _ _ => true) some) TrieCost.ex).Chk fun t =>
    ((t.searchL .fwd [] (fun r => r = [.int 1, .int 3]) false).log.map (·.1) = [[], [.int 1], [.int 1, .int 2], [.int 1, .int 3]] ∧
      tested (t.searchL .fwd [] (fun r => r = [.int 1, .int 3]) false).log = [[.int 1, .nil], [.int 1, .int 2], [.int 1, .int 3]]) ∧
    (t.searchL .rev [] (fun r => r = [.int 1, .int 3]) true).log.length = 3 ∧
    (t.searchL .fwd [] (fun r => r = [.int 1, .int 3]) true).log.length = 4 := by decide +kernel

section
variable (m : T → T → Bool) (keys : T → Option (List Val)) (hist : List (Option T)) (t : Trie T)
  (h : insertAll (Trie.new m keys) hist = .ok t) (o : Ord) (site : List Val) (cb : T → Bool)
include h

omit h in
theorem TrieCost.run (stop : Bool) : ∃ b, (t.searchL o site cb stop).res = (tested (t.searchL o site cb stop).log).filter cb ∧
    Ended cb stop (TrieCost.Node.all [] t.root) (t.searchL o site cb stop).log b := by
  obtain ⟨l, b, e, en⟩ := TrieCost.Node.dfsL_good o site cb stop [] t.root {}
  refine ⟨b, ?_, ?_⟩ <;> simp only [Trie.searchL, e, List.nil_append] 
  exact en

/-- The nodes: the root and one for every beginning of the keys of an inserted row. -/
theorem TrieCost.paths (p : List Val) : p ∈ (TrieCost.Node.all [] t.root).map (·.1) ↔
    p = [] ∨ ∃ x ∈ hist.filterMap id, p <+: rowKey keys x := by
  have inv := (TrieInv.new m keys).insertAll h
  have hh := has_insertAll (keys := keys) (by rfl) h p
  rw [show (Trie.new m keys).root = Node.new from rfl, TrieCost.Node.has_new] at hh
  rw [List.mem_map, or_comm, ← hh]
  constructor
  · rintro ⟨⟨q, d⟩, hm, rfl⟩
    obtain ⟨p, rfl, hp, _⟩ := (TrieCost.Node.mem_all t.root inv.wf [] q d).1 hm
    exact hp
  · intro hp
    exact ⟨(p, t.root.find p), (TrieCost.Node.mem_all t.root inv.wf [] p _).2 ⟨p, rfl, hp, rfl⟩, rfl⟩

theorem TrieCost.rows : (tested (TrieCost.Node.all [] t.root)).Perm (survivors (rowKey keys) (hist.filterMap id)) := by
  have inv := (TrieInv.new m keys).insertAll h
  rw [List.nil_append] at inv
  rw [TrieCost.Node.tested_all]
  exact inv.entries_perm

/-- C132: a search (not for the first match) visits each node exactly once, passes each stored row to the callback exactly
once, and returns the rows the callback accepts in the order in which they were passed. -/
theorem C132_search :
    ((t.searchL o site cb false).log.map (·.1)).Nodup ∧
    (∀ p, p ∈ (t.searchL o site cb false).log.map (·.1) ↔ p = [] ∨ ∃ x ∈ hist.filterMap id, p <+: rowKey keys x) ∧
    ((t.searchL o site cb false).log.filterMap (·.2)).Perm (survivors (rowKey keys) (hist.filterMap id)) ∧
    (t.searchL o site cb false).res = ((t.searchL o site cb false).log.filterMap (·.2)).filter cb := by
  obtain ⟨b, e, en⟩ := TrieCost.run t o site cb false
  rcases en with ⟨_, pm, _⟩ | ⟨_, hs, _⟩
  · have inv := (TrieInv.new m keys).insertAll h
    refine ⟨?_, fun p => ?_, ?_, e⟩
    · exact (pm.map (·.1)).nodup_iff.2 (TrieCost.Node.all_nodup t.root inv.wf [])
    · rw [(pm.map (·.1)).mem_iff]; exact TrieCost.paths m keys hist t h p
    · exact (tested_perm pm).trans (TrieCost.rows m keys hist t h)
  · cases hs

/-- C132: a search for the first match visits no node twice and passes no row twice to the callback.  It ends with the first
row that the callback accepts, or, if the callback accepts no stored row, after all nodes. -/
theorem C132_first :
    ((t.searchL o site cb true).log.map (·.1)).Nodup ∧
    (∀ p ∈ (t.searchL o site cb true).log.map (·.1), p = [] ∨ ∃ x ∈ hist.filterMap id, p <+: rowKey keys x) ∧
    ((t.searchL o site cb true).log.filterMap (·.2)).Subperm (survivors (rowKey keys) (hist.filterMap id)) ∧
    ((∃ l p x, (t.searchL o site cb true).log = l ++ [(p, some x)] ∧ cb x = true ∧ (∀ y ∈ l.filterMap (·.2), cb y = false) ∧
        (t.searchL o site cb true).res = [x]) ∨
      ((∀ x ∈ survivors (rowKey keys) (hist.filterMap id), cb x = false) ∧ (t.searchL o site cb true).res = [] ∧
        ∀ p, (p = [] ∨ ∃ x ∈ hist.filterMap id, p <+: rowKey keys x) → p ∈ (t.searchL o site cb true).log.map (·.1))) := by
  have inv := (TrieInv.new m keys).insertAll h
  have nd := TrieCost.Node.all_nodup t.root inv.wf []
  have ps := TrieCost.paths m keys hist t h
  have rw' := TrieCost.rows m keys hist t h
  obtain ⟨b, e, en⟩ := TrieCost.run t o site cb true
  have sub : (t.searchL o site cb true).log.Subperm (TrieCost.Node.all [] t.root) := by
    rcases en with ⟨_, pm, _⟩ | ⟨_, _, sub, _⟩
    · exact pm.subperm
    · exact sub
  obtain ⟨l', pl, sl⟩ := sub
  refine ⟨?_, ?_, ?_, ?_⟩
  · exact (pl.map (·.1)).nodup_iff.1 ((sl.map (·.1)).nodup nd)
  · intro p hp
    exact (ps p).1 ((sl.map (·.1)).subset ((pl.map (·.1)).mem_iff.2 hp))
  · have : (tested (t.searchL o site cb true).log).Subperm (tested (TrieCost.Node.all [] t.root)) :=
      ⟨tested l', tested_perm pl, sl.filterMap _⟩
    exact this.trans rw'.subperm
  · rcases en with ⟨_, pm, no⟩ | ⟨_, _, _, l, p, x, el, hx, hy⟩
    · right
      refine ⟨fun x hx => no rfl x (((tested_perm pm).trans rw').mem_iff.2 hx), ?_, fun p hp => ?_⟩
      · rw [e, List.filter_eq_nil_iff]
        intro x hx; rw [no rfl x hx]; simp
      · rw [(pm.map (·.1)).mem_iff]; exact (ps p).2 hp
    · left
      refine ⟨l, p, x, el, hx, hy, ?_⟩
      rw [e, el, tested_append, List.filter_append, List.filter_eq_nil_iff.2]
      · simp [tested, hx]
      · intro y h; rw [hy y h]; simp

/-- C132: no search makes more calls than one for the root and one for every key of every inserted row. -/
theorem C132_bound (stop : Bool) : (t.searchL o site cb stop).log.length ≤
    1 + ((hist.filterMap id).map (fun x => (rowKey keys x).length)).sum := by
  have inv := (TrieInv.new m keys).insertAll h
  have nd := TrieCost.Node.all_nodup t.root inv.wf []
  have ps := TrieCost.paths m keys hist t h
  obtain ⟨b, e, en⟩ := TrieCost.run t o site cb stop
  have le : (t.searchL o site cb stop).log.length ≤ (TrieCost.Node.all [] t.root).length := by
    rcases en with ⟨_, pm, _⟩ | ⟨_, _, sub, _⟩
    · exact pm.subperm.length_le
    · exact sub.length_le
  refine Nat.le_trans le ?_
  have : ((TrieCost.Node.all [] t.root).map (·.1)).Subperm
      ([] :: (hist.filterMap id).flatMap fun x => (List.range (rowKey keys x).length).map fun i => (rowKey keys x).take (i + 1)) := by
    refine List.subperm_of_subset nd fun p hp => ?_
    rcases (ps p).1 hp with rfl | ⟨x, hx, pre⟩
    · simp
    · cases p with
      | nil => simp
      | cons a p =>
        refine List.mem_cons_of_mem _ (List.mem_flatMap.2 ⟨x, hx, List.mem_map.2 ⟨p.length, ?_, ?_⟩⟩)
        · have := pre.length_le
          simp at this ⊢; omega
        · have := List.prefix_iff_eq_take.1 pre
          simpa using this.symm
  have := this.length_le
  simp only [List.length_map, List.length_cons, List.length_flatMap, List.length_range] at this
  omega

omit h in
/-- C132: the counted search returns what the search of `Model/Trie.lean` returns, in the same order, for every order in which
children may be visited that does not look at what is visited. -/
theorem C132_counted (nat : o.Natural) (stop : Bool) : (t.searchL o site cb stop).res = t.search o site cb stop := by
  have := TrieCost.Node.dfsL_erases nat site cb stop [] t.root {}
  rw [Trie.search, ← this]; rfl

end

end Verif
