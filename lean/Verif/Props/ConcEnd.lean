import Mathlib.Order.OrderIsoNat
import Verif.Lemmas.TrieConcEnd
import Verif.Props.TrieConc
import Verif.Props.RegConc
import Verif.Props.RoleConc

/-!
# Concurrent calls of the root package come to an end (C93)

A goroutine in a call on the trie, on a registry or on a role never waits for another one, and no
schedule goes on for ever.
-/

namespace Verif

/-! ## The trie -/

namespace TC
variable {T : Type}

/-- The filters of all searches return or panic. -/
def Answers (calls : List (List (Call T))) : Prop :=
  ∀ l ∈ calls, ∀ q, Call.search q ∈ l → ∀ d, q.cb d ≠ .diverge

/-- A goroutine that has something left to do can go on at once, whatever the others do, unless its
filter has panicked. -/
theorem C93_trie_moves {keys : T → List Val} {h0 : Heap T} (g : h0.Good keys) {calls : List (List (Call T))}
    (ha : Answers calls) {is : List Nat} {c : Conf T} (e : (Conf.start h0 calls).run keys is = some c)
    {i : Nat} {t : Thread T} (ht : c.ts[i]? = some t) (hn : ¬ (t.cur = none ∧ t.todo = []))
    (hd : ∀ call, t.cur ≠ some (call, .dead)) : ∃ c', c.step keys i = some c' := by
  obtain ⟨path, v⟩ := inv_run g e
  unfold Conf.step
  simp only [ht]
  cases hc : t.cur with
  | none =>
    cases hr : t.todo with
    | nil => exact absurd ⟨hc, hr⟩ hn
    | cons call rest => exact ⟨_, rfl⟩
  | some cs =>
    obtain ⟨call, s⟩ := cs
    have hs := spot_moves (v.spot t (List.mem_of_getElem? ht) call s hc) (fun h => hd call (by rw [hc, h])) (by
      rintro q rfl
      exact ha _ (List.mem_of_getElem? (prog_run e i t ht)) q
        (List.mem_append_left _ (by simp [Thread.begun, hc])))
    obtain ⟨⟨h, nx⟩, hs⟩ := Option.isSome_iff_exists.1 hs
    cases nx <;> simp [hs]

/-- No schedule goes on for ever. -/
theorem C93_trie_ends {keys : T → List Val} {h0 : Heap T} (g : h0.Good keys) (calls : List (List (Call T))) :
    ¬ ∃ f : Nat → Conf T, f 0 = Conf.start h0 calls ∧ ∀ n, ∃ i, (f n).step keys i = some (f (n + 1)) := by
  rintro ⟨f, h0f, hf⟩
  have hinv : ∀ n, ∃ path, Inv keys h0 (f n) path := by
    intro n
    induction n with
    | zero => rw [h0f]; exact inv_start g calls
    | succ n ih =>
      obtain ⟨path, v⟩ := ih
      obtain ⟨i, e⟩ := hf n
      exact (inv_step v e).imp fun _ h => h.1
  refine (wellFounded_iff_isEmpty_descending_chain.1 (wf_less (T := T) keys)).false ⟨f, fun n => ?_⟩
  obtain ⟨path, v⟩ := hinv n
  obtain ⟨i, e⟩ := hf n
  exact step_less (ranked_shape v.shape) e

/-- Only a filter panics. -/
theorem step_dead {h h' : Heap T} {s : Spot T} (e : s.step h = some (h', .at .dead)) :
    ∃ q n todo res d, s = .test q n todo res ∧ q.cb d = .panic := by
  cases s with
  | test q n todo res =>
    simp only [Spot.step] at e
    split at e
    · cases e
    · rename_i a ha
      split at e
      · cases e
      · cases e
      · rename_i hp; exact ⟨q, n, todo, res, a.data, rfl, hp⟩
      · cases e
  | down x n ks =>
    cases ks with
    | nil => cases e
    | cons k ks =>
      simp only [Spot.step] at e
      split at e
      · cases e
      · split at e
        · cases e
        · split at e <;> cases e
  | enter q todo res =>
    cases todo with
    | nil => cases e
    | cons n todo =>
      simp only [Spot.step] at e
      split at e
      · cases e
      · injection e with e
        injection e with _ e
        injection e with e
        split at e <;> cases e
  | take q n todo res =>
    simp only [Spot.step] at e
    split at e
    · cases e
    · split at e <;> cases e
  | spread q n todo res =>
    simp only [Spot.step] at e
    split at e <;> cases e
  | make x n k ks => cases e
  | save x n => cases e
  | dead => cases e

/-- When nobody can go on, every goroutine has made all its calls, in its order, or is in a search whose
filter panicked. -/
theorem C93_trie_returns {keys : T → List Val} {h0 : Heap T} (g : h0.Good keys) {calls : List (List (Call T))}
    (ha : Answers calls) {is : List Nat} {c : Conf T} (e : (Conf.start h0 calls).run keys is = some c)
    (hs : ∀ i, c.step keys i = none) {i : Nat} {t : Thread T} (ht : c.ts[i]? = some t) :
    calls[i]? = some (t.out.map (·.1)) ∨ ∃ q d, t.cur = some (.search q, .dead) ∧ q.cb d = .panic := by
  have hdead : ∀ t ∈ c.ts, ∀ call, t.cur = some (call, .dead) → ∃ q d, call = .search q ∧ q.cb d = .panic := by
    refine (run_inv (P := fun c => (∃ path, Inv keys h0 c path) ∧
      ∀ t ∈ c.ts, ∀ call, t.cur = some (call, .dead) → ∃ q d, call = .search q ∧ q.cb d = .panic) ?_ is ?_ e).2
    · rintro c c' i ⟨⟨path, v⟩, hd⟩ e
      refine ⟨(inv_step v e).imp fun _ h => h.1, fun u hu call hc => ?_⟩
      obtain ⟨t, t', ht, hts, hk⟩ := conf_step e
      have hm := List.mem_of_getElem? ht
      rw [hts] at hu
      rcases mem_set_ts hu with rfl | hu
      · rcases hk with ⟨call', rest, h1, h2, _, rfl⟩ | ⟨call', s, s', h1, h2, rfl⟩ | ⟨call', s, res, h1, h2, rfl⟩
        · injection hc with hc
          injection hc with h3 h4
          cases call' <;> cases h4
        · injection hc with hc
          injection hc with h3 h4
          subst h3 h4
          have o := v.spot t hm _ s h1
          obtain ⟨q, n, todo, res, d, rfl, hp⟩ := step_dead h2
          exact ⟨q, d, o.1, hp⟩
        · cases hc
      · exact hd u hu call hc
    · refine ⟨inv_start g calls, fun t ht call h => ?_⟩
      simp only [Conf.start, List.mem_map] at ht
      obtain ⟨l, _, rfl⟩ := ht
      cases h
  by_cases hd : ∀ call, t.cur ≠ some (call, .dead)
  · left
    have hfin : t.cur = none ∧ t.todo = [] := Classical.byContradiction fun hn => by
      obtain ⟨c', h⟩ := C93_trie_moves g ha e ht hn hd
      rw [hs i] at h
      cases h
    rw [prog_run e i t ht]
    simp [Thread.begun, hfin.1, hfin.2]
  · right
    obtain ⟨call, hc⟩ := Classical.not_forall.1 hd
    have hc := Classical.not_not.1 hc
    obtain ⟨q, d, rfl, hp⟩ := hdead t (List.mem_of_getElem? ht) call hc
    exact ⟨q, d, hc, hp⟩

section examples
open Verif

/-- Hypotheses met: an insertion and two searches. -/
theorem answers_example : Answers [[.insert rowA], [.search (ask rowT)], [.search askAll]] := by
  intro l hl q hq d
  simp only [List.mem_cons, List.not_mem_nil, or_false] at hl
  rcases hl with rfl | rfl | rfl
  · simp at hq
  · simp only [List.mem_singleton, Call.search.injEq] at hq
    subst hq
    cases d <;> simp
  · simp only [List.mem_singleton, Call.search.injEq] at hq
    subst hq
    simp

/-- They run to their end. -/
example : (((Conf.start heapT [[.insert rowA], [.search (ask rowT)], [.search askAll]]).run dkeys
    (List.replicate 10 0 ++ List.replicate 13 1 ++ List.replicate 14 2)).map
      fun c => (c.ts.map fun t => (t.todo.length, t.cur.isNone), (List.range 4).map fun i => (c.step dkeys i).isNone)) =
    some ([(0, true), (0, true), (0, true)], [true, true, true, true]) := by decide +kernel

end examples

end TC

/-! ## The registries -/

namespace RC

/-- A goroutine that has something left to do can go on at once. -/
theorem C93_registry_moves (c : Conf) {i : Nat} {t : Thread} (ht : c.ts[i]? = some t)
    (hn : ¬ (t.cur = none ∧ t.todo = [])) : ∃ c', c.step i = some c' := by
  unfold Conf.step
  simp only [ht]
  cases hc : t.cur with
  | none =>
    cases hr : t.todo with
    | nil => exact absurd ⟨hc, hr⟩ hn
    | cons call rest => exact ⟨_, rfl⟩
  | some cs =>
    obtain ⟨call, s⟩ := cs
    show ∃ c', (match step1 c.reg call s with
      | (reg, some res) => some (Conf.mk reg (c.ts.set i { t with cur := none, out := t.out ++ [(call, res)] }))
      | (reg, none) => some (Conf.mk reg (c.ts.set i { t with cur := some (call, .set) }))) = some c'
    split <;> exact ⟨_, rfl⟩

/-- The accesses left. -/
def left (t : Thread) : Nat :=
  (match t.cur with
    | none => 0
    | some (_, .get) => 2
    | some (_, .set) => 1) + 3 * t.todo.length

/-- No schedule goes on for ever. -/
theorem C93_registry_ends : ¬ ∃ f : Nat → Conf, ∀ n, ∃ i, (f n).step i = some (f (n + 1)) := by
  rintro ⟨f, hf⟩
  refine (wellFounded_iff_isEmpty_descending_chain.1
    (InvImage.wf (fun c : Conf => (c.ts.map left).sum) Nat.lt_wfRel.wf)).false ⟨f, fun n => ?_⟩
  obtain ⟨i, e⟩ := hf n
  obtain ⟨t, t', ht, _, hts, _, hk⟩ := step_cases e
  have h1 := sum_set left (f n).ts i t t' ht
  rw [← hts] at h1
  have h2 : left t' < left t := by
    rcases hk with ⟨call, rest, hc, hr, _, rfl⟩ | ⟨_, _, hc, _, _, rfl⟩ | ⟨_, _, _, hc, _, _, rfl⟩ |
      ⟨_, _, hc, _, rfl⟩ | ⟨_, s, hc, _, rfl⟩
    · simp only [left, hc, hr, List.length_cons]; omega
    · simp [left, hc]
    · simp [left, hc]
    · simp [left, hc]
    · cases s <;> simp [left, hc]
  show ((f (n + 1)).ts.map left).sum < ((f n).ts.map left).sum
  omega

/-- When nobody can go on, every goroutine has made all its calls, in its order. -/
theorem C93_registry_returns {reg0 : GoMap Str Nat} {calls : List (List Call)} {is : List Nat} {c : Conf}
    (e : (Conf.start reg0 calls).run is = some c) (hs : ∀ i, c.step i = none) {i : Nat} {t : Thread}
    (ht : c.ts[i]? = some t) : calls[i]? = some (t.out.map (·.1)) := by
  have hfin : t.cur = none ∧ t.todo = [] := Classical.byContradiction fun hn => by
    obtain ⟨c', h⟩ := C93_registry_moves c ht hn
    rw [hs i] at h
    cases h
  rw [prog_run e i t ht]
  simp [Thread.begun, hfin.1, hfin.2]

end RC

/-! ## Roles and groups -/

namespace GC

/-- The objects of a call exist. -/
def Call.Named (h : RHeap) : Call → Prop
  | .grant r _ _ => r < h.roles.length
  | .addGroup r ga => r < h.roles.length ∧ ga < h.groups.length
  | .descend r ds => r < h.roles.length ∧ ∀ d ∈ ds, d < h.roles.length
  | .setLock r _ => r < h.roles.length
  | .fill ga _ => ga < h.groups.length

/-- What a goroutine in a call stands at exists, and belongs to the call. -/
def At (h : RHeap) : Call → Spot → Prop
  | .grant _ _ _, .gate => True
  | .grant _ _ _, .group => True
  | .grant _ _ _, .keep ga _ => ga < h.groups.length
  | .grant _ _ _, .attr ga _ _ => ga < h.groups.length
  | .addGroup _ _, .gate => True
  | .addGroup _ _, .gget => True
  | .addGroup _ _, .gset => True
  | .descend _ _, .gate => True
  | .descend _ _, .dget ds => ∀ d ∈ ds, d < h.roles.length
  | .descend _ _, .dset d ds => ∀ e ∈ d :: ds, e < h.roles.length
  | .setLock _ _, .write => True
  | .fill _ _, .fill _ => True
  | _, _ => False

/-- No goroutine holds an address of nothing. -/
structure Firm (c : Conf) : Prop where
  slots : ∀ r g ga, slot c.heap r g = some ga → ga < c.heap.groups.length
  cur : ∀ t ∈ c.ts, ∀ call s, t.cur = some (call, s) → call.Named c.heap ∧ At c.heap call s
  todo : ∀ t ∈ c.ts, ∀ call ∈ t.todo, call.Named c.heap

theorem Acc.rlen {h h' : RHeap} {call : Call} {s : Spot} {n : Next} (a : Acc h call s h' n) :
    h'.roles.length = h.roles.length := by
  cases a <;> simp

theorem Call.Named.mono {h h' : RHeap} (h1 : h.roles.length ≤ h'.roles.length) (h2 : h.groups.length ≤ h'.groups.length)
    {call : Call} (n : call.Named h) : call.Named h' := by
  cases call with
  | grant r g as => exact Nat.lt_of_lt_of_le n h1
  | addGroup r ga => exact ⟨Nat.lt_of_lt_of_le n.1 h1, Nat.lt_of_lt_of_le n.2 h2⟩
  | descend r ds => exact ⟨Nat.lt_of_lt_of_le n.1 h1, fun d hd => Nat.lt_of_lt_of_le (n.2 d hd) h1⟩
  | setLock r b => exact Nat.lt_of_lt_of_le n h1
  | fill ga as => exact Nat.lt_of_lt_of_le n h2

theorem At.mono {h h' : RHeap} (h1 : h.roles.length ≤ h'.roles.length) (h2 : h.groups.length ≤ h'.groups.length)
    {call : Call} {s : Spot} (a : At h call s) : At h' call s := by
  cases call <;> cases s <;> first
    | exact a
    | exact Nat.lt_of_lt_of_le a h2
    | exact fun d hd => Nat.lt_of_lt_of_le (a d hd) h1

theorem Acc.at {h h' : RHeap} {call : Call} {s s' : Spot} (a : Acc h call s h' (.at s'))
    (hs : ∀ r g ga, GC.slot h r g = some ga → ga < h.groups.length) (n : call.Named h) (o : At h call s) :
    At h' call s' := by
  generalize hn : Next.at s' = nx at a
  cases a with
  | enter he hr hl =>
    cases hn
    cases call with
    | grant => cases he; exact trivial
    | addGroup => cases he; exact trivial
    | descend => cases he; exact n.2
    | setLock => cases he
    | fill => cases he
  | found hr hg => cases hn; exact hs _ _ _ (by rw [slot_of hr]; exact hg)
  | fresh => cases hn; simp [At]
  | has => cases hn; exact o
  | lacks => cases hn; exact o
  | put hG => cases hn; simpa [At] using o
  | gabsent => cases hn; trivial
  | dthere => cases hn; exact fun d hd => o d (List.mem_cons_of_mem _ hd)
  | dabsent => cases hn; exact o
  | dset =>
    cases hn
    intro d hd
    simpa using o d (List.mem_cons_of_mem _ hd)
  | fset => cases hn; trivial
  | _ => cases hn

theorem firm_step {c c' : Conf} {i : Nat} (f : Firm c) (e : c.step i = some c') : Firm c' := by
  obtain ⟨t, t', ht, _, hts, _, hk⟩ := step_cases e
  have hm : t ∈ c.ts := List.mem_of_getElem? ht
  have key : (∀ r g ga, slot c'.heap r g = some ga → ga < c'.heap.groups.length) →
      c.heap.roles.length ≤ c'.heap.roles.length → c.heap.groups.length ≤ c'.heap.groups.length →
      (∀ call s, t'.cur = some (call, s) → call.Named c'.heap ∧ At c'.heap call s) →
      (∀ call ∈ t'.todo, call ∈ t.todo) → Firm c' := by
    intro h1 h2 h3 h4 h5
    refine ⟨h1, ?_, ?_⟩
    · intro u hu
      rcases mem_ts hts hu with rfl | hu
      · exact h4
      · exact fun call s hc => ⟨(f.cur u hu call s hc).1.mono h2 h3, (f.cur u hu call s hc).2.mono h2 h3⟩
    · intro u hu
      rcases mem_ts hts hu with rfl | hu
      · exact fun call hc => (f.todo t hm call (h5 call hc)).mono h2 h3
      · exact fun call hc => (f.todo u hu call hc).mono h2 h3
  have hslots : ∀ call s nx, t.cur = some (call, s) → Acc c.heap call s c'.heap nx →
      ∀ r g ga, slot c'.heap r g = some ga → ga < c'.heap.groups.length := by
    intro call s nx hc a r g ga hg
    have h1 := f.cur t hm call s hc
    have hl := a.len
    rcases a.slot r g with h | ⟨as, ga', rfl, rfl, h⟩ | ⟨ga', G, rfl, rfl, _, _, h⟩
    · rw [h] at hg
      exact Nat.lt_of_lt_of_le (f.slots r g ga hg) hl
    · rw [h] at hg
      cases hg
      exact Nat.lt_of_lt_of_le h1.2 hl
    · rw [h] at hg
      cases hg
      exact Nat.lt_of_lt_of_le h1.1.2 hl
  rcases hk with ⟨call, rest, h1, h2, hh, rfl⟩ | ⟨call, s, s', h1, a, rfl⟩ | ⟨call, s, res, h1, a, rfl⟩
  · refine key (by rw [hh]; exact f.slots) (by rw [hh]) (by rw [hh]) ?_ (fun call hc => by rw [h2]; exact List.mem_cons_of_mem _ hc)
    intro call' s hc
    cases hc
    have hn := f.todo t hm call (by rw [h2]; exact List.mem_cons_self)
    rw [hh]
    refine ⟨hn, ?_⟩
    cases call <;> trivial
  · refine key (hslots _ _ _ h1 a) (by rw [a.rlen]) a.len ?_ (fun call hc => hc)
    intro call' s2 hc
    cases hc
    obtain ⟨hn, ho⟩ := f.cur t hm call s h1
    exact ⟨hn.mono (by rw [a.rlen]) a.len, a.at f.slots hn ho⟩
  · refine key (hslots _ _ _ h1 a) (by rw [a.rlen]) a.len (fun _ _ hc => by cases hc) (fun call hc => hc)

theorem firm_start {h0 : RHeap} (ok : Spec.RHeap.OK h0) {calls : List (List Call)}
    (hn : ∀ l ∈ calls, ∀ call ∈ l, call.Named h0) : Firm (Conf.start h0 calls) := by
  refine ⟨fun r g ga h => ?_, ?_, ?_⟩
  · simp only [slot, Option.bind_eq_some_iff] at h
    obtain ⟨ro, h1, h2⟩ := h
    exact ok.perms ro (List.mem_of_getElem? h1) _ (GoMap.get_some_mem h2)
  · intro t ht call s h
    simp only [Conf.start, List.mem_map] at ht
    obtain ⟨l, _, rfl⟩ := ht
    cases h
  · intro t ht call h
    simp only [Conf.start, List.mem_map] at ht
    obtain ⟨l, hl, rfl⟩ := ht
    exact hn l hl call h

theorem step1_moves {h : RHeap} {call : Call} {s : Spot} (n : call.Named h) (o : At h call s) :
    (step1 h call s).isSome := by
  have role : ∀ r, r < h.roles.length → ∃ ro, h.roles[r]? = some ro := fun r hr => ⟨_, List.getElem?_eq_getElem hr⟩
  have group : ∀ r, r < h.groups.length → ∃ G, h.groups[r]? = some G := fun r hr => ⟨_, List.getElem?_eq_getElem hr⟩
  cases call with
  | grant r g as =>
    obtain ⟨ro, hro⟩ := role r n
    cases s with
    | gate => simp [step1, gate, hro]
    | group => simp only [step1, hro]; split <;> rfl
    | keep ga as =>
      obtain ⟨G, hG⟩ := group ga o
      cases as with
      | nil => simp [step1, hro]
      | cons a as => simp [step1, hG]
    | attr ga a as =>
      obtain ⟨G, hG⟩ := group ga o
      simp [step1, hG]
    | _ => exact o.elim
  | addGroup r ga =>
    obtain ⟨ro, hro⟩ := role r n.1
    obtain ⟨G, hG⟩ := group ga n.2
    cases s with
    | gate => simp [step1, gate, hro]
    | gget => simp [step1, hro, hG]
    | gset => simp [step1, hro, hG]
    | _ => exact o.elim
  | descend r ds =>
    obtain ⟨ro, hro⟩ := role r n.1
    cases s with
    | gate => simp [step1, gate, hro]
    | dget ds =>
      cases ds with
      | nil => rfl
      | cons d ds =>
        obtain ⟨dro, hd⟩ := role d (o d List.mem_cons_self)
        simp [step1, hro, hd]
    | dset d ds =>
      obtain ⟨dro, hd⟩ := role d (o d List.mem_cons_self)
      simp [step1, hro, hd]
    | _ => exact o.elim
  | setLock r b =>
    obtain ⟨ro, hro⟩ := role r n
    cases s with
    | write => simp [step1, hro]
    | _ => exact o.elim
  | fill ga as =>
    obtain ⟨G, hG⟩ := group ga n
    cases s with
    | fill as =>
      cases as with
      | nil => rfl
      | cons a as => simp [step1, hG]
    | _ => exact o.elim

/-- A goroutine that has something left to do can go on at once, whatever the others do. -/
theorem C93_role_moves {h0 : RHeap} (ok : Spec.RHeap.OK h0) {calls : List (List Call)}
    (hn : ∀ l ∈ calls, ∀ call ∈ l, call.Named h0) {is : List Nat} {c : Conf}
    (e : (Conf.start h0 calls).run is = some c) {i : Nat} {t : Thread} (ht : c.ts[i]? = some t)
    (hw : ¬ (t.cur = none ∧ t.todo = [])) : ∃ c', c.step i = some c' := by
  have f : Firm c := run_inv (P := Firm) (fun _ _ _ h e => firm_step h e) is (firm_start ok hn) e
  unfold Conf.step
  simp only [ht]
  cases hc : t.cur with
  | none =>
    cases hr : t.todo with
    | nil => exact absurd ⟨hc, hr⟩ hw
    | cons call rest => exact ⟨_, rfl⟩
  | some cs =>
    obtain ⟨call, s⟩ := cs
    obtain ⟨h1, h2⟩ := f.cur t (List.mem_of_getElem? ht) call s hc
    obtain ⟨⟨h, nx⟩, hs⟩ := Option.isSome_iff_exists.1 (step1_moves h1 h2)
    cases nx <;> simp [hs]

/-- The accesses left at most. -/
def left : Call → Spot → Nat
  | .grant _ _ as, .gate => 2 * as.length + 3
  | .grant _ _ as, .group => 2 * as.length + 2
  | .grant _ _ _, .keep _ as => 2 * as.length + 1
  | .grant _ _ _, .attr _ _ as => 2 * as.length + 2
  | .addGroup _ _, .gate => 3
  | .addGroup _ _, .gget => 2
  | .addGroup _ _, .gset => 1
  | .descend _ ds, .gate => 2 * ds.length + 2
  | .descend _ _, .dget ds => 2 * ds.length + 1
  | .descend _ _, .dset _ ds => 2 * ds.length + 2
  | .setLock _ _, .write => 1
  | .fill _ _, .fill as => as.length + 1
  | _, _ => 0

def Thread.left (t : Thread) : Nat :=
  (t.cur.elim 0 fun e => GC.left e.1 e.2) + (t.todo.map fun call => GC.left call call.first + 1).sum

def Next.left (call : Call) : Next → Nat
  | .at s => GC.left call s
  | .ret _ => 0

theorem Acc.less {h h' : RHeap} {call : Call} {s : Spot} {n : Next} (a : Acc h call s h' n) :
    n.left call < left call s := by
  cases a with
  | shut he => cases call <;> cases he <;> simp [Next.left, left]
  | enter he => cases call <;> cases he <;> simp [Next.left, left]
  | has => simp only [Next.left, left, List.length_cons]; omega
  | lacks => simp only [Next.left, left, List.length_cons]; omega
  | dthere => simp only [Next.left, left, List.length_cons]; omega
  | dabsent => simp only [Next.left, left, List.length_cons]; omega
  | _ => simp [Next.left, left]

/-- No schedule goes on for ever. -/
theorem C93_role_ends : ¬ ∃ f : Nat → Conf, ∀ n, ∃ i, (f n).step i = some (f (n + 1)) := by
  rintro ⟨f, hf⟩
  refine (wellFounded_iff_isEmpty_descending_chain.1
    (InvImage.wf (fun c : Conf => (c.ts.map Thread.left).sum) Nat.lt_wfRel.wf)).false ⟨f, fun n => ?_⟩
  obtain ⟨i, e⟩ := hf n
  obtain ⟨t, t', ht, _, hts, _, hk⟩ := step_cases e
  have h1 := sum_set Thread.left (f n).ts i t t' ht
  rw [← hts] at h1
  have h2 : t'.left < t.left := by
    rcases hk with ⟨call, rest, hc, hr, _, rfl⟩ | ⟨call, s, s', hc, a, rfl⟩ | ⟨call, s, res, hc, a, rfl⟩
    · simp only [Thread.left, hc, hr, Option.elim_some, Option.elim_none, List.map_cons, List.sum_cons]; omega
    · have := a.less
      simp only [Next.left] at this
      simp only [Thread.left, hc, Option.elim_some]; omega
    · have := a.less
      simp only [Next.left] at this
      simp only [Thread.left, hc, Option.elim_some, Option.elim_none]; omega
  show ((f (n + 1)).ts.map Thread.left).sum < ((f n).ts.map Thread.left).sum
  omega

/-- When nobody can go on, every goroutine has made all its calls, in its order. -/
theorem C93_role_returns {h0 : RHeap} (ok : Spec.RHeap.OK h0) {calls : List (List Call)}
    (hn : ∀ l ∈ calls, ∀ call ∈ l, call.Named h0) {is : List Nat} {c : Conf}
    (e : (Conf.start h0 calls).run is = some c) (hs : ∀ i, c.step i = none) {i : Nat} {t : Thread}
    (ht : c.ts[i]? = some t) : calls[i]? = some (t.out.map (·.1)) := by
  have hfin : t.cur = none ∧ t.todo = [] := Classical.byContradiction fun hw => by
    obtain ⟨c', h⟩ := C93_role_moves ok hn e ht hw
    rw [hs i] at h
    cases h
  have hp : Prog calls c := run_inv (P := Prog calls) (fun _ _ _ h e => prog_step h e) is (prog_start h0 calls) e
  rw [hp i t ht]
  simp [Thread.begun, hfin.1, hfin.2]

/-- Hypotheses met: three grants of two goroutines. -/
theorem exCalls_named : ∀ l ∈ exCalls, ∀ call ∈ l, call.Named exShared := by
  intro l hl call hc
  simp only [exCalls, List.mem_cons, List.not_mem_nil, or_false] at hl
  rcases hl with rfl | rfl <;> simp only [List.mem_cons, List.not_mem_nil, or_false] at hc
  · rcases hc with rfl | rfl <;> exact Nat.zero_lt_one
  · subst hc; exact Nat.zero_lt_one

/-- They run to their end. -/
example : ((Conf.start exShared exCalls).run [0, 0, 0, 1, 1, 1, 1, 0, 0, 0, 1, 1, 0, 0, 0, 0, 0, 0]).map
    (fun c => (c.ts.map fun t => (t.todo.length, t.cur.isNone), (List.range 3).map fun i => (c.step i).isNone)) =
    some ([(0, true), (0, true)], [true, true, true]) := by decide +kernel

end GC
end Verif
