import Mathlib.Order.OrderIsoNat
import Mathlib.Algebra.Order.BigOperators.Group.List
import Verif.Lemmas.TrieConcRun

/-!
# Calls on a trie come to an end

Inserting goroutines have a bounded number of accesses left; while nobody inserts, the nodes a search
has still to visit get fewer.
-/

namespace Verif

/-- Replacing one summand. -/
theorem sum_set {α : Type _} (f : α → Nat) : ∀ (l : List α) (i : Nat) (a b : α), l[i]? = some a →
    ((l.set i b).map f).sum + f a = (l.map f).sum + f b
  | [], i, a, b, h => by simp at h
  | x :: l, 0, a, b, h => by
    simp only [List.getElem?_cons_zero, Option.some.injEq] at h
    subst h
    simp only [List.set_cons_zero, List.map_cons, List.sum_cons]; omega
  | x :: l, i + 1, a, b, h => by
    have := sum_set f l i a b (by simpa using h)
    simp only [List.set_cons_succ, List.map_cons, List.sum_cons]; omega

namespace TC
variable {T : Type}

/-- The number of nodes at and below `n`, up to a depth. -/
def size (h : Heap T) : Nat → Nat → Nat
  | 0, _ => 1
  | f + 1, n =>
    match h[n]? with
    | none => 1
    | some c => 1 + ((c.child.map (·.2)).map (size h f)).sum

theorem size_pos (h : Heap T) (f n : Nat) : 1 ≤ size h f n := by
  cases f with
  | zero => exact Nat.le_refl _
  | succ f =>
    simp only [size]
    split <;> omega

theorem sum_map_le {α : Type} {f g : α → Nat} : ∀ {l : List α}, (∀ a ∈ l, f a ≤ g a) →
    (l.map f).sum ≤ (l.map g).sum
  | [], _ => Nat.le_refl _
  | a :: l, h => by
    simp only [List.map_cons, List.sum_cons]
    exact Nat.add_le_add (h a List.mem_cons_self) (sum_map_le fun b hb => h b (List.mem_cons_of_mem _ hb))

theorem size_succ (h : Heap T) : ∀ f n, size h f n ≤ size h (f + 1) n
  | 0, n => size_pos h 1 n
  | f + 1, n => by
    rw [size, size]
    cases h[n]? with
    | none => exact Nat.le_refl _
    | some c => exact Nat.add_le_add_left (sum_map_le fun m _ => size_succ h f m) 1

theorem size_mono (h : Heap T) {f g : Nat} (hfg : f ≤ g) (n : Nat) : size h f n ≤ size h g n := by
  induction g, hfg using Nat.le_induction with
  | base => exact Nat.le_refl _
  | succ g _ ih => exact Nat.le_trans ih (size_succ h g n)

/-- Children rank below their node. -/
def Ranked (h : Heap T) (rank : Nat → Nat) : Prop :=
  ∀ (n : Nat) (c : Cell T), h[n]? = some c → ∀ m ∈ c.child.map (·.2), rank m < rank n

theorem ranked_shape {keys : T → List Val} {h : Heap T} {path : Nat → List Val} (s : Shape keys h path) :
    ∃ rank, Ranked h rank := by
  have hb : ∀ k : Nat, ∃ F, ∀ n, n < k → (path n).length ≤ F := by
    intro k
    induction k with
    | zero => exact ⟨0, fun n h => absurd h (Nat.not_lt_zero n)⟩
    | succ k ih =>
      obtain ⟨F, hF⟩ := ih
      refine ⟨max F (path k).length, fun n hn => ?_⟩
      rcases Nat.lt_succ_iff_lt_or_eq.1 hn with h | rfl
      · exact Nat.le_trans (hF n h) (Nat.le_max_left _ _)
      · exact Nat.le_max_right _ _
  obtain ⟨F, hF⟩ := hb h.length
  refine ⟨fun n => F - (path n).length, fun n c hn m hm => ?_⟩
  obtain ⟨⟨k, m'⟩, hk, rfl⟩ := List.mem_map.1 hm
  obtain ⟨_, h1, h2⟩ := s.kid n c k m' hn ((GoMap.mem_iff_get (s.wf n c hn)).1 hk)
  have h3 := hF m' h1
  rw [h2, List.length_append, List.length_singleton] at h3
  show F - (path m').length < F - (path n).length
  rw [h2, List.length_append, List.length_singleton]
  omega

open Classical in
/-- Some rank of the nodes. -/
noncomputable def rankOf (h : Heap T) : Nat → Nat :=
  if r : ∃ rank, Ranked h rank then r.choose else fun _ => 0

theorem ranked_rankOf {h : Heap T} (r : ∃ rank, Ranked h rank) : Ranked h (rankOf h) := by
  unfold rankOf
  rw [dif_pos r]
  exact r.choose_spec

/-- The number of nodes at and below `n`. -/
noncomputable def weight (h : Heap T) (n : Nat) : Nat := size h (rankOf h n) n

theorem weight_pos (h : Heap T) (n : Nat) : 1 ≤ weight h n := size_pos h _ n

theorem weight_child {h : Heap T} (r : ∃ rank, Ranked h rank) {n : Nat} {c : Cell T} (hn : h[n]? = some c) :
    ((c.child.map (·.2)).map (weight h)).sum + 1 ≤ weight h n := by
  have hr := ranked_rankOf r n c hn
  unfold weight
  cases hk : rankOf h n with
  | zero =>
    rw [hk] at hr
    have : c.child.map (·.2) = [] := List.eq_nil_iff_forall_not_mem.2 fun m hm => Nat.not_lt_zero _ (hr m hm)
    rw [this]
    exact size_pos h 0 n
  | succ f =>
    rw [hk] at hr
    simp only [size, hn]
    have := sum_map_le (l := c.child.map (·.2)) (f := fun n => size h (rankOf h n) n) (g := size h f)
      (fun m hm => size_mono h (Nat.le_of_lt_succ (hr m hm)) m)
    omega

/-- The accesses an insertion has left at most. -/
def Spot.ins : Spot T → Nat
  | .down _ _ ks => 2 * ks.length + 2
  | .make _ _ _ ks => 2 * ks.length + 3
  | .save _ _ => 1
  | _ => 0

/-- The accesses a search has left at most, while nobody inserts. -/
def Spot.seek (w : Nat → Nat) : Spot T → Nat
  | .enter _ todo _ => 4 * (todo.map w).sum + 1
  | .test _ n todo _ => 4 * w n + 4 * (todo.map w).sum
  | .take _ n todo _ => 4 * w n - 1 + 4 * (todo.map w).sum
  | .spread _ n todo _ => 4 * w n - 2 + 4 * (todo.map w).sum
  | _ => 0

def Next.ins : Next T → Nat
  | .at s => s.ins
  | .ret _ => 0

def Next.seek (w : Nat → Nat) : Next T → Nat
  | .at s => s.seek w
  | .ret _ => 0

def Call.ins (keys : T → List Val) : Call T → Nat
  | .insert x => 2 * (keys x).length + 3
  | .search _ => 0

def Call.seek (w : Nat → Nat) : Call T → Nat
  | .insert _ => 0
  | .search _ => 4 * w 0 + 2

def Thread.ins (keys : T → List Val) (t : Thread T) : Nat :=
  (t.cur.elim 0 fun e => e.2.ins) + (t.todo.map (Call.ins keys)).sum

def Thread.seek (w : Nat → Nat) (t : Thread T) : Nat :=
  (t.cur.elim 0 fun e => e.2.seek w) + (t.todo.map (Call.seek w)).sum

def Conf.ins (keys : T → List Val) (c : Conf T) : Nat := (c.ts.map (Thread.ins keys)).sum

noncomputable def Conf.seek (c : Conf T) : Nat := (c.ts.map (Thread.seek (weight c.heap))).sum

/-- An access uses up insertion work, or leaves it and the trie alone and uses up search work. -/
theorem spot_less {h h' : Heap T} (r : ∃ rank, Ranked h rank) {s : Spot T} {nx : Next T}
    (e : s.step h = some (h', nx)) :
    nx.ins < s.ins ∨ (h' = h ∧ nx.ins = s.ins ∧ nx.seek (weight h) < s.seek (weight h)) := by
  cases s with
  | down x n ks =>
    left
    cases ks with
    | nil => cases e; simp [Next.ins, Spot.ins]
    | cons k ks =>
      simp only [Spot.step] at e
      split at e
      · cases e; simp only [Next.ins, Spot.ins, List.length_cons]; omega
      · split at e
        · cases e
        · split at e <;> cases e <;> simp only [Next.ins, Spot.ins, List.length_cons] <;> omega
  | make x n k ks => left; cases e; simp only [Next.ins, Spot.ins]; omega
  | save x n => left; cases e; simp [Next.ins, Spot.ins]
  | enter q todo res =>
    right
    cases todo with
    | nil => cases e; exact ⟨rfl, rfl, by simp [Next.seek, Spot.seek]⟩
    | cons n todo =>
      simp only [Spot.step] at e
      split at e
      · cases e
      · rename_i c hc
        cases e
        have := weight_pos h n
        cases c.isEnd
        · refine ⟨rfl, rfl, ?_⟩
          show 4 * weight h n - 2 + 4 * (todo.map (weight h)).sum < 4 * (weight h n + (todo.map (weight h)).sum) + 1
          omega
        · refine ⟨rfl, rfl, ?_⟩
          show 4 * weight h n + 4 * (todo.map (weight h)).sum < 4 * (weight h n + (todo.map (weight h)).sum) + 1
          omega
  | test q n todo res =>
    right
    simp only [Spot.step] at e
    have := weight_pos h n
    split at e
    · cases e
    · split at e <;> cases e <;> refine ⟨rfl, rfl, ?_⟩ <;> simp only [Next.seek, Spot.seek] <;> omega
  | take q n todo res =>
    right
    simp only [Spot.step] at e
    have := weight_pos h n
    split at e
    · cases e
    · split at e <;> cases e <;> refine ⟨rfl, rfl, ?_⟩ <;> simp only [Next.seek, Spot.seek] <;> omega
  | spread q n todo res =>
    right
    simp only [Spot.step] at e
    split at e
    · cases e
    · rename_i c hn
      cases e
      refine ⟨rfl, rfl, ?_⟩
      have hw := weight_child r hn
      have hp : ((q.ord.ord [.int n] _ (c.child.map (·.2))).map (weight h)).sum =
          ((c.child.map (·.2)).map (weight h)).sum := ((q.ord.perm _ _ _).map _).sum_eq
      simp only [Next.seek, Spot.seek, List.map_append, List.sum_append, hp]
      omega
  | dead => cases e

/-- Insertion work decreases, or it stays and search work decreases. -/
def Less (keys : T → List Val) (c' c : Conf T) : Prop :=
  c'.ins keys < c.ins keys ∨ (c'.ins keys = c.ins keys ∧ c'.seek < c.seek)

theorem wf_less (keys : T → List Val) : WellFounded (Less (T := T) keys) := by
  refine Subrelation.wf ?_ (InvImage.wf (fun c : Conf T => (c.ins keys, c.seek))
    (WellFounded.prod_lex Nat.lt_wfRel.wf Nat.lt_wfRel.wf))
  intro c' c h
  rcases h with h | ⟨h1, h2⟩
  · exact Prod.Lex.left _ _ h
  · show Prod.Lex _ _ (c'.ins keys, c'.seek) (c.ins keys, c.seek)
    rw [h1]
    exact Prod.Lex.right _ h2

theorem step_less {keys : T → List Val} {c c' : Conf T} {i : Nat} (r : ∃ rank, Ranked c.heap rank)
    (e : c.step keys i = some c') : Less keys c' c := by
  obtain ⟨t, t', ht, hts, hk⟩ := conf_step e
  have h1 := sum_set (Thread.ins keys) c.ts i t t' ht
  have h2 := sum_set (Thread.seek (weight c.heap)) c.ts i t t' ht
  rw [← hts] at h1 h2
  have main : (t'.ins keys < t.ins keys) ∨ (c'.heap = c.heap ∧ t'.ins keys = t.ins keys ∧
      t'.seek (weight c.heap) < t.seek (weight c.heap)) → Less keys c' c := by
    rintro (h | ⟨hh, h, h'⟩)
    · left; simp only [Conf.ins]; omega
    · right
      simp only [Conf.ins, Conf.seek, hh]
      omega
  apply main
  rcases hk with ⟨call, rest, hc, hr, hh, rfl⟩ | ⟨call, s, s', hc, hs, rfl⟩ | ⟨call, s, res, hc, hs, rfl⟩
  · cases call with
    | insert x =>
      left
      simp [Thread.ins, hc, hr, Call.first, Spot.ins, Call.ins]
    | search q =>
      right
      refine ⟨hh, ?_, ?_⟩
      · simp [Thread.ins, hc, hr, Call.first, Spot.ins, Call.ins]
      · simp [Thread.seek, hc, hr, Call.first, Spot.seek, Call.seek]
  · rcases spot_less r hs with h | ⟨hh, h, h'⟩
    · left
      simp only [Thread.ins, hc, Option.elim_some]
      exact Nat.add_lt_add_right h _
    · right
      refine ⟨hh, ?_, ?_⟩
      · simp only [Thread.ins, hc, Option.elim_some]; exact congrArg (· + _) h
      · simp only [Thread.seek, hc, Option.elim_some]; exact Nat.add_lt_add_right h' _
  · rcases spot_less r hs with h | ⟨hh, h, h'⟩
    · left
      simp only [Thread.ins, hc, Option.elim_some, Option.elim_none]
      exact Nat.add_lt_add_right h _
    · right
      refine ⟨hh, ?_, ?_⟩
      · simp only [Thread.ins, hc, Option.elim_some, Option.elim_none]; exact congrArg (· + _) h
      · simp only [Thread.seek, hc, Option.elim_some, Option.elim_none]; exact Nat.add_lt_add_right h' _

/-- An access is possible in every situation that occurs, except after a panic and in a filter that does
not return. -/
theorem spot_moves {keys : T → List Val} {h0 h : Heap T} {path : Nat → List Val} {B : T → Prop} {call : Call T}
    {s : Spot T} (o : SpotOk keys h0 h path B call s) (hd : s ≠ .dead)
    (hq : ∀ q, call = .search q → ∀ d, q.cb d ≠ .diverge) : (s.step h).isSome := by
  have get : ∀ n, n < h.length → ∃ c : Cell T, h[n]? = some c := fun n hn => ⟨_, List.getElem?_eq_getElem hn⟩
  cases s with
  | down x n ks =>
    cases ks with
    | nil => rfl
    | cons k ks =>
      obtain ⟨c, hc⟩ := get n o.2.1
      simp only [Spot.step, hc]
      split
      · rfl
      · split <;> rfl
  | make x n k ks => rfl
  | save x n => rfl
  | enter q todo res =>
    cases todo with
    | nil => rfl
    | cons n todo =>
      obtain ⟨c, hc⟩ := get n (o.2.seen n List.mem_cons_self).1
      simp [Spot.step, hc]
  | test q n todo res =>
    obtain ⟨c, hc⟩ := get n (o.2.1.seen n List.mem_cons_self).1
    have := hq q o.1 c.data
    simp only [Spot.step, hc]
    split
    · rfl
    · rfl
    · rfl
    · rename_i hv; exact absurd hv this
  | take q n todo res =>
    obtain ⟨c, hc⟩ := get n (o.2.1.seen n List.mem_cons_self).1
    simp only [Spot.step, hc]
    split <;> rfl
  | spread q n todo res =>
    obtain ⟨c, hc⟩ := get n o.2.2.1.1
    simp [Spot.step, hc]
  | dead => exact absurd rfl hd

end TC
end Verif
