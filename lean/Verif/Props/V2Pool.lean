import Verif.Model.V2Pool
import Verif.Props.V2

/-!
# Package v2: concurrent decisions (C57)
-/

namespace Verif
open Spec

/-! ## Specification -/

/-- The permissions of the assignments for the requested scope. -/
def scopedOf (job : List (Bool × Str)) : List Str := (job.filter fun x => x.1).map (·.2)

/-- The permissions of the unscoped assignments. -/
def globalOf (job : List (Bool × Str)) : List Str := (job.filter fun x => !x.1).map (·.2)

/-- The permissions that count: the scoped ones, else the unscoped ones. -/
def chosen (job : List (Bool × Str)) : List Str := if scopedOf job = [] then globalOf job else scopedOf job

/-- The answer of a call that runs alone: some permission that counts passes the test. -/
def Alone (c : Call) : Prop := ∃ job ∈ c.jobs, ∃ x ∈ chosen job, c.test x = true

namespace Pools
variable {cs : List Call} {p p' : Pools}

/-- Call `i` has map `m` of pool `b` in hand. -/
def Holds (p : Pools) (i : Nat) (b : Bool) (m : Nat) : Prop :=
  ∃ s g todo jobs, p.calls[i]? = some (.fill s g todo jobs) ∧ m = if b then s else g

/-- Call `i` is about to read, or is reading, map `m` of pool `b`, which it has given back. -/
def Reads (p : Pools) (i : Nat) (b : Bool) (m : Nat) : Prop :=
  (∃ jobs, p.calls[i]? = some (.ret (some (b, m)) jobs)) ∨
  ∃ owed seen jobs, p.calls[i]? = some (.iter (b, m) owed seen jobs)

/-- The step starts a resolution with a map that call `i` still reads. -/
def Disturbs (p : Pools) (i : Nat) (mv : Move) : Prop :=
  ∃ j s g b m, mv = .get j s g ∧ Reads p i b m ∧ (if b then s else g) = some m

/-- No resolution gets a map that call `i` still reads. -/
def Undisturbed (cs : List Call) (i : Nat) : Pools → List Move → Prop
  | _, [] => True
  | p, mv :: mvs => ¬ Disturbs p i mv ∧ ∀ p', p.step cs mv = some p' → Undisturbed cs i p' mvs

/-- The call that moves. -/
def mover : Move → Nat
  | .get i .. | .write i | .put i | .start i | .read i _ | .stop i | .deny i => i

/-- Maps in hand are in range, not in the pool and in one hand only. -/
structure Shape (p : Pools) : Prop where
  nodup : ∀ b, (p.pool b).free.Nodup
  lt : ∀ b, ∀ m ∈ (p.pool b).free, m < (p.pool b).maps.length
  held : ∀ i b m, Holds p i b m → m < (p.pool b).maps.length ∧ m ∉ (p.pool b).free
  one : ∀ i j b m, Holds p i b m → Holds p j b m → i = j

/-! ## Steps -/

theorem take_spec {q q' : MapPool} {o : Option Nat} {m : Nat} (h : q.take o = some (m, q')) (nd : q.free.Nodup)
    (lt : ∀ k ∈ q.free, k < q.maps.length) :
    m < q'.maps.length ∧ m ∉ q'.free ∧ q'.keys m = [] ∧ q'.free.Nodup ∧ (∀ k ∈ q'.free, k ∈ q.free) ∧
    q.maps.length ≤ q'.maps.length ∧ (m < q.maps.length → m ∈ q.free ∧ o = some m) ∧
    (∀ k, k < q.maps.length → k ≠ m → q'.keys k = q.keys k) ∧ ∀ k ∈ q.free, o ≠ some k → k ∈ q'.free ∧ k ≠ m := by
  cases o with
  | none =>
    cases h
    refine ⟨by simp, fun hm => by have := lt _ hm; omega, by simp [MapPool.keys], nd, fun k hk => hk, by simp, fun h => by omega,
      fun k hk _ => ?_, fun k hk _ => ⟨hk, fun h => by have := lt k hk; omega⟩⟩
    simp [MapPool.keys, List.getElem?_append_left hk]
  | some a =>
    unfold MapPool.take at h
    simp only at h
    split at h
    · rename_i ha
      injection h with h
      injection h with e1 e2
      subst e1; subst e2
      have hl := lt a ha
      refine ⟨by simpa using hl, fun hm => (List.Nodup.mem_erase_iff nd).1 hm |>.1 rfl, by simp [MapPool.keys, hl], nd.erase _,
        fun k hk => List.mem_of_mem_erase hk, by simp, fun _ => ⟨ha, rfl⟩, fun k hk hne => ?_, fun k hk hne => ?_⟩
      · simp [MapPool.keys, List.getElem?_set_ne (Ne.symm hne)]
      · have : k ≠ a := fun h => hne (h ▸ rfl)
        exact ⟨(List.Nodup.mem_erase_iff nd).2 ⟨this, hk⟩, this⟩
    · cases h

theorem get_eq {i : Nat} {s g : Option Nat} (h : p.step cs (.get i s g) = some p') : ∃ job jobs s' g' ps pg,
    p.calls[i]? = some (.idle (job :: jobs)) ∧ p.scopedP.take s = some (s', ps) ∧ p.globalP.take g = some (g', pg) ∧
    p' = { scopedP := ps, globalP := pg, calls := p.calls.set i (.fill s' g' job jobs) } := by
  simp only [step] at h
  split at h
  · rename_i job jobs h1
    split at h
    · rename_i s' ps g' pg h2 h3
      cases h
      exact ⟨job, jobs, s', g', ps, pg, h1, h2, h3, rfl⟩
    · cases h
  · cases h

theorem write_eq {i : Nat} (h : p.step cs (.write i) = some p') : ∃ s g x todo jobs,
    p.calls[i]? = some (.fill s g (x :: todo) jobs) ∧ p' = (p.writeTo s g x).setCall i (.fill s g todo jobs) := by
  simp only [step] at h
  split at h
  · rename_i s g x todo jobs h1
    cases h
    exact ⟨s, g, x, todo, jobs, h1, rfl⟩
  · cases h

theorem put_eq {i : Nat} (h : p.step cs (.put i) = some p') : ∃ s g jobs,
    p.calls[i]? = some (.fill s g [] jobs) ∧
    p' = { scopedP := p.scopedP.put s, globalP := p.globalP.put g, calls := p.calls.set i (.ret (p.result s g) jobs) } := by
  simp only [step] at h
  split at h
  · rename_i s g jobs h1
    cases h
    exact ⟨s, g, jobs, h1, rfl⟩
  · cases h

theorem start_eq {i : Nat} (h : p.step cs (.start i) = some p') :
    (∃ m jobs, p.calls[i]? = some (.ret (some m) jobs) ∧ p' = p.setCall i (.iter m ((p.pool m.1).keys m.2) [] jobs)) ∨
    ∃ jobs, p.calls[i]? = some (.ret none jobs) ∧ p' = p.setCall i (.idle jobs) := by
  simp only [step] at h
  split at h
  · rename_i m jobs h1; cases h; exact .inl ⟨m, jobs, h1, rfl⟩
  · rename_i jobs h1; cases h; exact .inr ⟨jobs, h1, rfl⟩
  · cases h

theorem read_eq {i : Nat} {x : Str} (h : p.step cs (.read i x) = some p') : ∃ m owed seen jobs c,
    p.calls[i]? = some (.iter m owed seen jobs) ∧ cs[i]? = some c ∧ x ∈ (p.pool m.1).keys m.2 ∧ x ∉ seen ∧
    p' = p.setCall i (if c.test x then .done true else .iter m owed (seen ++ [x]) jobs) := by
  simp only [step] at h
  split at h
  · rename_i m owed seen jobs c h1 h2
    split at h
    · rename_i h3; cases h; exact ⟨m, owed, seen, jobs, c, h1, h2, h3.1, h3.2, rfl⟩
    · cases h
  · cases h

theorem stop_eq {i : Nat} (h : p.step cs (.stop i) = some p') : ∃ m owed seen jobs,
    p.calls[i]? = some (.iter m owed seen jobs) ∧ (∀ x ∈ owed, x ∈ (p.pool m.1).keys m.2 → x ∈ seen) ∧ p' = p.setCall i (.idle jobs) := by
  simp only [step] at h
  split at h
  · rename_i m owed seen jobs h1
    split at h
    · rename_i h3; cases h; exact ⟨m, owed, seen, jobs, h1, h3, rfl⟩
    · cases h
  · cases h

theorem deny_eq {i : Nat} (h : p.step cs (.deny i) = some p') :
    p.calls[i]? = some (.idle []) ∧ p' = p.setCall i (.done false) := by
  simp only [step] at h
  split at h
  · rename_i h1; cases h; exact ⟨h1, rfl⟩
  · cases h

theorem calls_set {i j : Nat} {c c' : Phase} (hi : p.calls[i]? = some c) :
    (p.calls.set i c')[j]? = if i = j then some c' else p.calls[j]? := by
  rw [List.getElem?_set]
  by_cases h : i = j
  · subst h
    have := (List.getElem?_eq_some_iff.1 hi).1
    simp [this]
  · simp [h]

/-- What one step does to the pools and to the phase of another call. -/
theorem others {mv : Move} (h : p.step cs mv = some p') {i : Nat} (hi : mover mv ≠ i) :
    p'.calls[i]? = p.calls[i]? := by
  have key : ∀ {c c' : Phase} {j : Nat}, j ≠ i → (p.calls.set j c')[i]? = p.calls[i]? := fun hj => by
    rw [List.getElem?_set_ne hj]
  cases mv with
  | get j s g => obtain ⟨_, _, _, _, _, _, _, _, _, rfl⟩ := get_eq h; exact key (c := .done true) hi
  | write j =>
    obtain ⟨s, g, ⟨b, x⟩, _, _, _, rfl⟩ := write_eq h
    cases b <;> exact key (c := .done true) hi
  | put j => obtain ⟨_, _, _, _, rfl⟩ := put_eq h; exact key (c := .done true) hi
  | start j => rcases start_eq h with ⟨_, _, _, rfl⟩ | ⟨_, _, rfl⟩ <;> exact key (c := .done true) hi
  | read j x => obtain ⟨_, _, _, _, _, _, _, _, _, rfl⟩ := read_eq h; exact key (c := .done true) hi
  | stop j => obtain ⟨_, _, _, _, _, _, rfl⟩ := stop_eq h; exact key (c := .done true) hi
  | deny j => obtain ⟨_, rfl⟩ := deny_eq h; exact key (c := .done true) hi

theorem shape_same {i : Nat} {c c' : Phase} (sh : Shape p) (hi : p.calls[i]? = some c)
    (hc : ∀ s g todo jobs, c' ≠ .fill s g todo jobs) : Shape (p.setCall i c') := by
  have hh : ∀ j b m, Holds (p.setCall i c') j b m → Holds p j b m := by
    rintro j b m ⟨s, g, todo, jobs, h1, h2⟩
    rw [show (p.setCall i c').calls = p.calls.set i c' from rfl, calls_set hi] at h1
    split at h1
    · cases h1; exact absurd rfl (hc s g todo jobs)
    · exact ⟨s, g, todo, jobs, h1, h2⟩
  have hp : ∀ b, (p.setCall i c').pool b = p.pool b := fun b => by cases b <;> rfl
  exact ⟨fun b => hp b ▸ sh.nodup b, fun b => hp b ▸ sh.lt b, fun j b m h => hp b ▸ sh.held j b m (hh j b m h),
    fun j k b m h1 h2 => sh.one j k b m (hh _ _ _ h1) (hh _ _ _ h2)⟩

theorem write_maps_length (q : MapPool) (m : Nat) (x : Str) : (q.write m x).maps.length = q.maps.length := by
  simp [MapPool.write]

theorem pool_write {s g : Nat} {x : Bool × Str} {i : Nat} {c : Phase} (b : Bool) :
    ((p.writeTo s g x).setCall i c).pool b = if b = x.1 then (p.pool b).write (if b then s else g) x.2 else p.pool b := by
  obtain ⟨b', x⟩ := x
  cases b <;> cases b' <;> rfl

theorem shape_step {mv : Move} (sh : Shape p) (h : p.step cs mv = some p') : Shape p' := by
  cases mv with
  | get i s g =>
    obtain ⟨job, jobs, s', g', ps, pg, h1, h2, h3, rfl⟩ := get_eq h
    have t1 := take_spec h2 (sh.nodup true) (sh.lt true)
    have t2 := take_spec h3 (sh.nodup false) (sh.lt false)
    have hh : ∀ j b m, Holds { scopedP := ps, globalP := pg, calls := p.calls.set i (.fill s' g' job jobs) } j b m →
        (j = i ∧ m = if b then s' else g') ∨ (j ≠ i ∧ Holds p j b m) := by
      rintro j b m ⟨s, g, todo, jobs', k1, k2⟩
      simp only [calls_set h1] at k1
      split at k1
      · rename_i hij
        cases k1; exact .inl ⟨hij.symm, k2⟩
      · rename_i hij
        exact .inr ⟨fun h => hij h.symm, s, g, todo, jobs', k1, k2⟩
    have hne : ∀ j b m, Holds p j b m → m ≠ if b then s' else g' := by
      intro j b m hm he
      have hl := sh.held j b m hm
      cases b with
      | true => simp only [if_true] at he; subst he; exact hl.2 (t1.2.2.2.2.2.2.1 hl.1).1
      | false => simp only [Bool.false_eq_true, if_false] at he; subst he; exact hl.2 (t2.2.2.2.2.2.2.1 hl.1).1
    refine ⟨fun b => ?_, fun b m hm => ?_, fun j b m hm => ?_, fun j k b m h4 h5 => ?_⟩
    · cases b
      · exact t2.2.2.2.1
      · exact t1.2.2.2.1
    · cases b
      · exact Nat.lt_of_lt_of_le (sh.lt false m (t2.2.2.2.2.1 m hm)) t2.2.2.2.2.2.1
      · exact Nat.lt_of_lt_of_le (sh.lt true m (t1.2.2.2.2.1 m hm)) t1.2.2.2.2.2.1
    · rcases hh j b m hm with ⟨rfl, rfl⟩ | ⟨_, hm⟩
      · cases b
        · exact ⟨t2.1, t2.2.1⟩
        · exact ⟨t1.1, t1.2.1⟩
      · have := sh.held j b m hm
        cases b
        · exact ⟨Nat.lt_of_lt_of_le this.1 t2.2.2.2.2.2.1, fun h => this.2 (t2.2.2.2.2.1 m h)⟩
        · exact ⟨Nat.lt_of_lt_of_le this.1 t1.2.2.2.2.2.1, fun h => this.2 (t1.2.2.2.2.1 m h)⟩
    · rcases hh j b m h4 with ⟨e0, e1⟩ | ⟨_, k4⟩ <;> rcases hh k b m h5 with ⟨e3, e2⟩ | ⟨_, k5⟩
      · rw [e0, e3]
      · exact absurd e1 (hne k b m k5)
      · exact absurd e2 (hne j b m k4)
      · exact sh.one j k b m k4 k5
  | write i =>
    obtain ⟨s, g, x, todo, jobs, h1, rfl⟩ := write_eq h
    have hh : ∀ j b m, Holds ((p.writeTo s g x).setCall i (.fill s g todo jobs)) j b m → Holds p j b m := by
      rintro j b m ⟨s2, g2, todo2, jobs2, k1, k2⟩
      have : ((p.writeTo s g x).setCall i (.fill s g todo jobs)).calls = p.calls.set i (.fill s g todo jobs) := by
        obtain ⟨b', x⟩ := x; cases b' <;> rfl
      rw [this, calls_set h1] at k1
      split at k1
      · rename_i hij
        cases k1; subst hij; exact ⟨s, g, x :: todo, jobs, h1, k2⟩
      · exact ⟨s2, g2, todo2, jobs2, k1, k2⟩
    have hf : ∀ b, (((p.writeTo s g x).setCall i (.fill s g todo jobs)).pool b).free = (p.pool b).free := fun b => by
      rw [pool_write]; split <;> rfl
    have hl : ∀ b, (((p.writeTo s g x).setCall i (.fill s g todo jobs)).pool b).maps.length = (p.pool b).maps.length := fun b => by
      rw [pool_write]; split
      · exact write_maps_length ..
      · rfl
    exact ⟨fun b => by rw [hf]; exact sh.nodup b, fun b => by rw [hf, hl]; exact sh.lt b,
      fun j b m hm => by rw [hf, hl]; exact sh.held j b m (hh j b m hm), fun j k b m h4 h5 => sh.one j k b m (hh _ _ _ h4) (hh _ _ _ h5)⟩
  | put i =>
    obtain ⟨s, g, jobs, h1, rfl⟩ := put_eq h
    have hi : ∀ b, Holds p i b (if b then s else g) := fun b => ⟨s, g, [], jobs, h1, rfl⟩
    have hh : ∀ j b m, Holds { scopedP := p.scopedP.put s, globalP := p.globalP.put g, calls := p.calls.set i (.ret (p.result s g) jobs) } j b m →
        j ≠ i ∧ Holds p j b m := by
      rintro j b m ⟨s2, g2, todo2, jobs2, k1, k2⟩
      simp only [calls_set h1] at k1
      split at k1
      · cases k1
      · rename_i hij; exact ⟨fun h => hij h.symm, s2, g2, todo2, jobs2, k1, k2⟩
    have hf : ∀ b, ((Pools.mk (p.scopedP.put s) (p.globalP.put g) (p.calls.set i (.ret (p.result s g) jobs))).pool b).free =
        (if b then s else g) :: (p.pool b).free := fun b => by cases b <;> rfl
    have hl : ∀ b, ((Pools.mk (p.scopedP.put s) (p.globalP.put g) (p.calls.set i (.ret (p.result s g) jobs))).pool b).maps =
        (p.pool b).maps := fun b => by cases b <;> rfl
    refine ⟨fun b => ?_, fun b m hm => ?_, fun j b m hm => ?_, fun j k b m h4 h5 => sh.one j k b m (hh _ _ _ h4).2 (hh _ _ _ h5).2⟩
    · rw [hf]; exact List.nodup_cons.2 ⟨(sh.held i b _ (hi b)).2, sh.nodup b⟩
    · rw [hf] at hm; rw [hl]
      rcases List.mem_cons.1 hm with rfl | hm
      · exact (sh.held i b _ (hi b)).1
      · exact sh.lt b m hm
    · rw [hf, hl]
      obtain ⟨hne, hm⟩ := hh j b m hm
      have := sh.held j b m hm
      refine ⟨this.1, fun h => ?_⟩
      rcases List.mem_cons.1 h with rfl | h
      · exact hne (sh.one j i b _ hm (hi b))
      · exact this.2 h
  | start i =>
    rcases start_eq h with ⟨m, jobs, h1, rfl⟩ | ⟨jobs, h1, rfl⟩ <;> exact shape_same sh h1 (by simp)
  | read i x =>
    obtain ⟨m, owed, seen, jobs, c, h1, _, _, _, rfl⟩ := read_eq h
    exact shape_same sh h1 (by split <;> simp)
  | stop i => obtain ⟨m, owed, seen, jobs, h1, _, rfl⟩ := stop_eq h; exact shape_same sh h1 (by simp)
  | deny i => obtain ⟨h1, rfl⟩ := deny_eq h; exact shape_same sh h1 (by simp)

/-- A step of another call leaves the maps in hand alone, and the free maps it does not take. -/
theorem others_keys {mv : Move} (sh : Shape p) (h : p.step cs mv = some p') {i : Nat} (hi : mover mv ≠ i) {b : Bool} {m : Nat} :
    (Holds p i b m → (p'.pool b).keys m = (p.pool b).keys m) ∧
    (m ∈ (p.pool b).free → (∀ j s g, mv = .get j s g → (if b then s else g) ≠ some m) →
      (p'.pool b).keys m = (p.pool b).keys m ∧ m ∈ (p'.pool b).free) := by
  cases mv with
  | get j s g =>
    obtain ⟨job, jobs, s', g', ps, pg, h1, h2, h3, rfl⟩ := get_eq h
    have t1 := take_spec h2 (sh.nodup true) (sh.lt true)
    have t2 := take_spec h3 (sh.nodup false) (sh.lt false)
    constructor
    · intro hm
      have hl := sh.held i b m hm
      cases b
      · exact t2.2.2.2.2.2.2.2.1 m hl.1 fun e => hl.2 (t2.2.2.2.2.2.2.1 (e ▸ hl.1) |>.1 |> (e ▸ ·))
      · exact t1.2.2.2.2.2.2.2.1 m hl.1 fun e => hl.2 (t1.2.2.2.2.2.2.1 (e ▸ hl.1) |>.1 |> (e ▸ ·))
    · intro hm hne
      have hne := hne j s g rfl
      have hl := sh.lt b m hm
      cases b
      · have := t2.2.2.2.2.2.2.2.2 m hm (by simpa using hne)
        exact ⟨t2.2.2.2.2.2.2.2.1 m hl this.2, this.1⟩
      · have := t1.2.2.2.2.2.2.2.2 m hm (by simpa using hne)
        exact ⟨t1.2.2.2.2.2.2.2.1 m hl this.2, this.1⟩
  | write j =>
    obtain ⟨s, g, x, todo, jobs, h1, rfl⟩ := write_eq h
    have hj : ∀ b, Holds p j b (if b then s else g) := fun b => ⟨s, g, x :: todo, jobs, h1, rfl⟩
    have key : m ≠ (if b then s else g) → (((p.writeTo s g x).setCall j (.fill s g todo jobs)).pool b).keys m = (p.pool b).keys m := by
      intro hne
      rw [pool_write]
      split
      · simp [MapPool.write, MapPool.keys, List.getElem?_set_ne (Ne.symm hne)]
      · rfl
    have hf : (((p.writeTo s g x).setCall j (.fill s g todo jobs)).pool b).free = (p.pool b).free := by
      rw [pool_write]; split <;> rfl
    refine ⟨fun hm => key fun e => hi (sh.one j i b m (e ▸ hj b) hm), fun hm _ => ⟨key fun e => ?_, hf.symm ▸ hm⟩⟩
    exact (sh.held j b _ (hj b)).2 (e ▸ hm)
  | put j =>
    obtain ⟨s, g, jobs, h1, rfl⟩ := put_eq h
    refine ⟨fun _ => by cases b <;> rfl, fun hm _ => ⟨by cases b <;> rfl, ?_⟩⟩
    cases b <;> exact List.mem_cons_of_mem _ hm
  | start j =>
    rcases start_eq h with ⟨m, jobs, h1, rfl⟩ | ⟨jobs, h1, rfl⟩ <;> cases b <;> exact ⟨fun _ => rfl, fun hm _ => ⟨rfl, hm⟩⟩
  | read j x =>
    obtain ⟨m, owed, seen, jobs, c, h1, _, _, _, rfl⟩ := read_eq h
    cases b <;> exact ⟨fun _ => rfl, fun hm _ => ⟨rfl, hm⟩⟩
  | stop j => obtain ⟨m, owed, seen, jobs, h1, _, rfl⟩ := stop_eq h; cases b <;> exact ⟨fun _ => rfl, fun hm _ => ⟨rfl, hm⟩⟩
  | deny j => obtain ⟨h1, rfl⟩ := deny_eq h; cases b <;> exact ⟨fun _ => rfl, fun hm _ => ⟨rfl, hm⟩⟩

/-! ## Undisturbed calls -/

/-- None of these resolutions grants. -/
def Fails (c : Call) (jobs : List (List (Bool × Str))) : Prop := ∀ job ∈ jobs, ∀ x ∈ chosen job, c.test x = false

/-- The maps hold what call `i` put into them. -/
def Good (c : Call) (p : Pools) : Phase → Prop
  | .idle jobs => ∃ pre, c.jobs = pre ++ jobs ∧ Fails c pre
  | .fill s g todo jobs => ∃ pre old, c.jobs = pre ++ (old ++ todo) :: jobs ∧ Fails c pre ∧
      (∀ x, x ∈ p.scopedP.keys s ↔ x ∈ scopedOf old) ∧ ∀ x, x ∈ p.globalP.keys g ↔ x ∈ globalOf old
  | .ret none jobs => ∃ pre job, c.jobs = pre ++ job :: jobs ∧ Fails c pre ∧ chosen job = []
  | .ret (some m) jobs => ∃ pre job, c.jobs = pre ++ job :: jobs ∧ Fails c pre ∧ m.2 ∈ (p.pool m.1).free ∧
      ∀ x, x ∈ (p.pool m.1).keys m.2 ↔ x ∈ chosen job
  | .iter m owed seen jobs => ∃ pre job, c.jobs = pre ++ job :: jobs ∧ Fails c pre ∧ m.2 ∈ (p.pool m.1).free ∧
      (∀ x, x ∈ (p.pool m.1).keys m.2 ↔ x ∈ chosen job) ∧ (∀ x, x ∈ owed ↔ x ∈ chosen job) ∧ ∀ x ∈ seen, c.test x = false
  | .done b => b = true ↔ Alone c

theorem scopedOf_append (a b : List (Bool × Str)) : scopedOf (a ++ b) = scopedOf a ++ scopedOf b := by simp [scopedOf]
theorem globalOf_append (a b : List (Bool × Str)) : globalOf (a ++ b) = globalOf a ++ globalOf b := by simp [globalOf]

theorem mem_addStr' {s : List Str} {x y : Str} : y ∈ addStr s x ↔ y ∈ s ∨ y = x := by
  unfold addStr
  split
  · rename_i h
    exact ⟨.inl, fun g => g.elim id fun e => e ▸ h⟩
  · simp

theorem keys_write {q : MapPool} {m : Nat} (h : m < q.maps.length) {x y : Str} : y ∈ (q.write m x).keys m ↔ y ∈ q.keys m ∨ y = x := by
  have : (q.write m x).keys m = addStr (q.keys m) x := by simp [MapPool.write, MapPool.keys, h]
  rw [this, mem_addStr']

theorem eq_nil_congr {l l' : List Str} (h : ∀ x, x ∈ l ↔ x ∈ l') : l = [] ↔ l' = [] := by
  rw [List.eq_nil_iff_forall_not_mem, List.eq_nil_iff_forall_not_mem]
  exact forall_congr' fun x => not_congr (h x)

theorem fails_snoc {c : Call} {pre : List (List (Bool × Str))} {job : List (Bool × Str)} (h : Fails c pre)
    (hj : ∀ x ∈ chosen job, c.test x = false) : Fails c (pre ++ [job]) := by
  intro j hj' x hx
  rcases List.mem_append.1 hj' with h1 | h1
  · exact h j h1 x hx
  · rw [List.mem_singleton] at h1; subst h1; exact hj x hx

/-- A call that is not disturbed keeps its maps. -/
theorem good_step {mv : Move} {i : Nat} {c : Call} (sh : Shape p) (hc : cs[i]? = some c)
    (hg : ∀ ph, p.calls[i]? = some ph → Good c p ph) (hd : ¬ Disturbs p i mv) (h : p.step cs mv = some p') :
    ∀ ph, p'.calls[i]? = some ph → Good c p' ph := by
  by_cases hi : mover mv ≠ i
  · intro ph hph
    rw [others h hi] at hph
    have hk := fun b m => others_keys (b := b) (m := m) sh h hi
    have hfree : ∀ b m, Reads p i b m → m ∈ (p.pool b).free →
        (p'.pool b).keys m = (p.pool b).keys m ∧ m ∈ (p'.pool b).free := fun b m hr hm =>
      (hk b m).2 hm fun j s g e1 e2 => hd ⟨j, s, g, b, m, e1, hr, e2⟩
    have := hg ph hph
    cases ph with
    | idle jobs => exact this
    | fill s g todo jobs =>
      obtain ⟨pre, old, h1, h2, h3, h4⟩ := this
      have e1 : p'.scopedP.keys s = p.scopedP.keys s := (hk true s).1 ⟨s, g, todo, jobs, hph, rfl⟩
      have e2 : p'.globalP.keys g = p.globalP.keys g := (hk false g).1 ⟨s, g, todo, jobs, hph, rfl⟩
      exact ⟨pre, old, h1, h2, e1.symm ▸ h3, e2.symm ▸ h4⟩
    | ret m jobs =>
      cases m with
      | none => exact this
      | some m =>
        obtain ⟨pre, job, h1, h2, h3, h4⟩ := this
        obtain ⟨e1, e2⟩ := hfree m.1 m.2 (.inl ⟨jobs, hph⟩) h3
        exact ⟨pre, job, h1, h2, e2, e1.symm ▸ h4⟩
    | iter m owed seen jobs =>
      obtain ⟨pre, job, h1, h2, h3, h4, h5⟩ := this
      obtain ⟨e1, e2⟩ := hfree m.1 m.2 (.inr ⟨owed, seen, jobs, hph⟩) h3
      exact ⟨pre, job, h1, h2, e2, e1.symm ▸ h4, h5⟩
    | done b => exact this
  · have hi : mover mv = i := Classical.byContradiction hi
    intro ph hph
    cases mv with
    | get j s g =>
      cases hi
      obtain ⟨job, jobs, s', g', ps, pg, h1, h2, h3, rfl⟩ := get_eq h
      have t1 := take_spec h2 (sh.nodup true) (sh.lt true)
      have t2 := take_spec h3 (sh.nodup false) (sh.lt false)
      simp only [calls_set h1, if_true, mover] at hph
      cases hph
      obtain ⟨pre, k1, k2⟩ := hg _ h1
      refine ⟨pre, [], k1, k2, fun x => ?_, fun x => ?_⟩
      · simp [t1.2.2.1, scopedOf]
      · simp [t2.2.2.1, globalOf]
    | write j =>
      cases hi
      obtain ⟨s, g, x, todo, jobs, h1, rfl⟩ := write_eq h
      have hj : ∀ b, Holds p j b (if b then s else g) := fun b => ⟨s, g, x :: todo, jobs, h1, rfl⟩
      have l1 : s < p.scopedP.maps.length := (sh.held j true s (hj true)).1
      have l2 : g < p.globalP.maps.length := (sh.held j false g (hj false)).1
      have : ((p.writeTo s g x).setCall j (.fill s g todo jobs)).calls = p.calls.set j (.fill s g todo jobs) := by
        obtain ⟨b', x⟩ := x; cases b' <;> rfl
      rw [this] at hph
      simp only [calls_set h1, if_true, mover] at hph
      cases hph
      obtain ⟨pre, old, k1, k2, k3, k4⟩ := hg _ h1
      refine ⟨pre, old ++ [x], by simp [k1], k2, ?_, ?_⟩
      · obtain ⟨b, x⟩ := x
        cases b with
        | true =>
          intro y
          show y ∈ (p.scopedP.write s x).keys s ↔ _
          rw [keys_write l1, k3, scopedOf_append]
          simp [scopedOf]
        | false =>
          intro y
          show y ∈ p.scopedP.keys s ↔ _
          rw [k3, scopedOf_append]
          simp [scopedOf]
      · obtain ⟨b, x⟩ := x
        cases b with
        | true =>
          intro y
          show y ∈ p.globalP.keys g ↔ _
          rw [k4, globalOf_append]
          simp [globalOf]
        | false =>
          intro y
          show y ∈ (p.globalP.write g x).keys g ↔ _
          rw [keys_write l2, k4, globalOf_append]
          simp [globalOf]
    | put j =>
      cases hi
      obtain ⟨s, g, jobs, h1, rfl⟩ := put_eq h
      simp only [calls_set h1, if_true, mover] at hph
      cases hph
      obtain ⟨pre, old, k1, k2, k3, k4⟩ := hg _ h1
      rw [List.append_nil] at k1
      have n1 := eq_nil_congr k3
      have n2 := eq_nil_congr k4
      unfold result
      by_cases e1 : p.scopedP.keys s = []
      · have hc : chosen old = globalOf old := by unfold chosen; rw [if_pos (n1.1 e1)]
        by_cases e2 : p.globalP.keys g = []
        · rw [if_neg (by simp [e1]), if_neg (by simp [e2])]
          exact ⟨pre, old, k1, k2, hc.trans (n2.1 e2)⟩
        · rw [if_neg (by simp [e1]), if_pos e2]
          exact ⟨pre, old, k1, k2, List.mem_cons_self .., fun x => hc.symm ▸ k4 x⟩
      · have hc : chosen old = scopedOf old := by unfold chosen; rw [if_neg fun e => e1 (n1.2 e)]
        rw [if_pos e1]
        exact ⟨pre, old, k1, k2, List.mem_cons_self .., fun x => hc.symm ▸ k3 x⟩
    | start j =>
      cases hi
      rcases start_eq h with ⟨m, jobs, h1, rfl⟩ | ⟨jobs, h1, rfl⟩
      · simp only [setCall, calls_set h1, if_true, mover] at hph
        cases hph
        obtain ⟨pre, job, k1, k2, k3, k4⟩ := hg _ h1
        have hp : ∀ c', (p.setCall j c').pool m.1 = p.pool m.1 := fun c' => by cases m.1 <;> rfl
        exact ⟨pre, job, k1, k2, by rw [hp]; exact k3, by rw [hp]; exact k4, k4, by simp⟩
      · simp only [setCall, calls_set h1, if_true, mover] at hph
        cases hph
        obtain ⟨pre, job, k1, k2, k3⟩ := hg _ h1
        exact ⟨pre ++ [job], by simp [k1], fails_snoc k2 (by simp [k3])⟩
    | read j x =>
      cases hi
      obtain ⟨m, owed, seen, jobs, c', h1, h2, h3, _, rfl⟩ := read_eq h
      rw [show cs[j]? = some c from hc] at h2; cases h2
      simp only [setCall, calls_set h1, if_true, mover] at hph
      cases hph
      obtain ⟨pre, job, k1, k2, k3, k4, k5, k6⟩ := hg _ h1
      cases ht : c.test x with
      | true =>
        simp only [if_true]
        exact iff_of_true rfl ⟨job, by simp [k1], x, (k4 x).1 h3, ht⟩
      | false =>
        simp only [Bool.false_eq_true, if_false]
        have hp : ∀ c', (p.setCall j c').pool m.1 = p.pool m.1 := fun c' => by cases m.1 <;> rfl
        refine ⟨pre, job, k1, k2, by rw [hp]; exact k3, by rw [hp]; exact k4, k5, fun y hy => ?_⟩
        rcases List.mem_append.1 hy with hy | hy
        · exact k6 y hy
        · rw [List.mem_singleton] at hy; subst hy; exact ht
    | stop j =>
      cases hi
      obtain ⟨m, owed, seen, jobs, h1, h2, rfl⟩ := stop_eq h
      simp only [setCall, calls_set h1, if_true, mover] at hph
      cases hph
      obtain ⟨pre, job, k1, k2, k3, k4, k5, k6⟩ := hg _ h1
      exact ⟨pre ++ [job], by simp [k1], fails_snoc k2 fun x hx => k6 x (h2 x ((k5 x).2 hx) ((k4 x).2 hx))⟩
    | deny j =>
      cases hi
      obtain ⟨h1, rfl⟩ := deny_eq h
      simp only [setCall, calls_set h1, if_true, mover] at hph
      cases hph
      obtain ⟨pre, k1, k2⟩ := hg _ h1
      rw [List.append_nil] at k1
      refine iff_of_false (by simp) ?_
      rintro ⟨job, g1, x, g2, g3⟩
      rw [k2 job (k1 ▸ g1) x g2] at g3; cases g3

theorem shape_start (h : Start cs p) : Shape p := by
  obtain ⟨h1, h2, h3, h4, h5⟩ := h
  have no : ∀ i b m, ¬ Holds p i b m := by
    rintro i b m ⟨s, g, todo, jobs, k1, _⟩
    rw [h1, List.getElem?_map] at k1
    obtain ⟨c, _, k2⟩ := Option.map_eq_some_iff.1 k1
    cases k2
  exact ⟨fun b => by cases b; exacts [h3, h2], fun b => by cases b; exacts [h5, h4], fun i b m h => absurd h (no i b m),
    fun i j b m h _ => absurd h (no i b m)⟩

theorem exec_cons {mv : Move} {mvs : List Move} (h : p.exec cs (mv :: mvs) = some p') :
    ∃ q, p.step cs mv = some q ∧ q.exec cs mvs = some p' := Option.bind_eq_some_iff.1 h

/-- C57. A call gets the answer it would get alone, if no other resolution is handed a map the call still reads. -/
theorem C57_undisturbed_partial (hs : Start cs p) {mvs : List Move} (h : p.exec cs mvs = some p') {i : Nat} {c : Call} (hc : cs[i]? = some c)
    (hu : Undisturbed cs i p mvs) {b : Bool} (hb : p'.calls[i]? = some (.done b)) : b = true ↔ Alone c := by
  have sh := shape_start hs
  have hg : ∀ ph, p.calls[i]? = some ph → Good c p ph := by
    intro ph hph
    rw [hs.1, List.getElem?_map, hc] at hph
    cases hph
    exact ⟨[], rfl, fun j hj => by cases hj⟩
  clear hs
  induction mvs generalizing p with
  | nil => cases h; exact hg _ hb
  | cons mv mvs ih =>
    obtain ⟨q, h1, h2⟩ := exec_cons h
    exact ih h2 (hu.2 q h1) (shape_step sh h1) (good_step sh hc hg hu.1 h1)

/-- While call `i` reads a map it has given back, no resolution starts. -/
def Quiet (cs : List Call) (i : Nat) : Pools → List Move → Prop
  | _, [] => True
  | p, mv :: mvs => ((∃ b m, Reads p i b m) → ∀ j s g, mv ≠ .get j s g) ∧ ∀ p', p.step cs mv = some p' → Quiet cs i p' mvs

/-- C57. In particular when no other resolution starts between a call's resolutions and its checks. -/
theorem C57_quiet_partial (hs : Start cs p) {mvs : List Move} (h : p.exec cs mvs = some p') {i : Nat} {c : Call} (hc : cs[i]? = some c)
    (hu : Quiet cs i p mvs) {b : Bool} (hb : p'.calls[i]? = some (.done b)) : b = true ↔ Alone c := by
  refine C57_undisturbed_partial hs h hc ?_ hb
  clear hb h hs
  induction mvs generalizing p with
  | nil => trivial
  | cons mv mvs ih =>
    refine ⟨fun ⟨j, s, g, b, m, e1, hr, _⟩ => hu.1 ⟨b, m, hr⟩ j s g e1, fun q hq => ih (hu.2 q hq)⟩

/-- Some call writes key `x`. -/
def Written (cs : List Call) (x : Str) : Prop := ∃ c ∈ cs, ∃ job ∈ c.jobs, ∃ y ∈ job, y.2 = x

/-- Every key of `jobs` is one that some call writes. -/
def FromCalls (cs : List Call) (jobs : List (List (Bool × Str))) : Prop := ∀ job ∈ jobs, ∀ y ∈ job, Written cs y.2

/-- The map has been made, and all its keys were written by calls. -/
def Made (cs : List Call) (p : Pools) (m : Bool × Nat) : Prop :=
  m.2 < (p.pool m.1).maps.length ∧ ∀ x ∈ (p.pool m.1).keys m.2, Written cs x

/-- What call `j` sees comes from calls. -/
def Own (cs : List Call) (p : Pools) (j : Nat) : Phase → Prop
  | .idle jobs => FromCalls cs jobs
  | .fill s g todo jobs => FromCalls cs (todo :: jobs) ∧ Made cs p (true, s) ∧ Made cs p (false, g)
  | .ret none jobs => FromCalls cs jobs
  | .ret (some m) jobs => FromCalls cs jobs ∧ Made cs p m
  | .iter m _ _ jobs => FromCalls cs jobs ∧ Made cs p m
  | .done b => b = true → ∀ c, cs[j]? = some c → ∃ x, Written cs x ∧ c.test x = true

theorem made_step (sh : Shape p) (hO : ∀ j ph, p.calls[j]? = some ph → Own cs p j ph) {mv : Move} (h1 : p.step cs mv = some p')
    {m : Bool × Nat} (hm : Made cs p m) : Made cs p' m := by
  obtain ⟨b, m⟩ := m
  obtain ⟨hm, hk⟩ := hm
  cases mv with
  | get j s g =>
    obtain ⟨job, jobs, s', g', ps, pg, k1, k2, k3, rfl⟩ := get_eq h1
    have t1 := take_spec k2 (sh.nodup true) (sh.lt true)
    have t2 := take_spec k3 (sh.nodup false) (sh.lt false)
    cases b with
    | true =>
      refine ⟨Nat.lt_of_lt_of_le hm t1.2.2.2.2.2.1, fun x hx => ?_⟩
      have hy : x ∈ ps.keys m := hx
      by_cases e : m = s'
      · rw [e, t1.2.2.1] at hy; cases hy
      · rw [t1.2.2.2.2.2.2.2.1 m hm e] at hy; exact hk x hy
    | false =>
      refine ⟨Nat.lt_of_lt_of_le hm t2.2.2.2.2.2.1, fun x hx => ?_⟩
      have hy : x ∈ pg.keys m := hx
      by_cases e : m = g'
      · rw [e, t2.2.2.1] at hy; cases hy
      · rw [t2.2.2.2.2.2.2.2.1 m hm e] at hy; exact hk x hy
  | write j =>
    obtain ⟨s, g, x, todo, jobs, k1, rfl⟩ := write_eq h1
    have hx : Written cs x.2 := (hO j _ k1).1 _ (List.mem_cons_self ..) x (List.mem_cons_self ..)
    unfold Made
    rw [pool_write]
    split
    · refine ⟨by rw [write_maps_length]; exact hm, fun y hy => ?_⟩
      by_cases e : m = if b then s else g
      · rw [← e, keys_write hm] at hy
        rcases hy with hy | rfl
        · exact hk y hy
        · exact hx
      · refine hk y ?_
        have : ((p.pool b).write (if b then s else g) x.2).keys m = (p.pool b).keys m := by
          simp [MapPool.write, MapPool.keys, List.getElem?_set_ne (Ne.symm e)]
        rwa [this] at hy
    · exact ⟨hm, hk⟩
  | put j => obtain ⟨s, g, jobs, k1, rfl⟩ := put_eq h1; cases b <;> exact ⟨hm, hk⟩
  | start j => rcases start_eq h1 with ⟨_, jobs, k1, rfl⟩ | ⟨jobs, k1, rfl⟩ <;> cases b <;> exact ⟨hm, hk⟩
  | read j x => obtain ⟨_, owed, seen, jobs, c, k1, _, _, _, rfl⟩ := read_eq h1; cases b <;> exact ⟨hm, hk⟩
  | stop j => obtain ⟨_, owed, seen, jobs, k1, _, rfl⟩ := stop_eq h1; cases b <;> exact ⟨hm, hk⟩
  | deny j => obtain ⟨k1, rfl⟩ := deny_eq h1; cases b <;> exact ⟨hm, hk⟩

theorem own_step (sh : Shape p) (hO : ∀ j ph, p.calls[j]? = some ph → Own cs p j ph) {mv : Move} (h1 : p.step cs mv = some p')
    (j : Nat) (ph : Phase) (hph : p'.calls[j]? = some ph) : Own cs p' j ph := by
  have grow : ∀ m, Made cs p m → Made cs p' m := fun m => made_step sh hO h1
  by_cases hj : mover mv ≠ j
  · have := hO j ph (others h1 hj ▸ hph)
    cases ph with
    | idle jobs => exact this
    | fill s g todo jobs => exact ⟨this.1, grow _ this.2.1, grow _ this.2.2⟩
    | ret m jobs =>
      cases m with
      | none => exact this
      | some m => exact ⟨this.1, grow _ this.2⟩
    | iter m owed seen jobs => exact ⟨this.1, grow _ this.2⟩
    | done b => exact this
  · have hj : mover mv = j := Classical.byContradiction hj
    cases mv with
    | get j' s g =>
      cases hj
      obtain ⟨job, jobs, s', g', ps, pg, k1, k2, k3, rfl⟩ := get_eq h1
      have t1 := take_spec k2 (sh.nodup true) (sh.lt true)
      have t2 := take_spec k3 (sh.nodup false) (sh.lt false)
      simp only [calls_set k1, if_true, mover] at hph
      cases hph
      refine ⟨hO _ _ k1, ⟨t1.1, fun x hx => ?_⟩, t2.1, fun x hx => ?_⟩
      · have hy : x ∈ ps.keys s' := hx
        rw [t1.2.2.1] at hy; cases hy
      · have hy : x ∈ pg.keys g' := hx
        rw [t2.2.2.1] at hy; cases hy
    | write j' =>
      cases hj
      obtain ⟨s, g, x, todo, jobs, k1, rfl⟩ := write_eq h1
      have hc : ((p.writeTo s g x).setCall j' (.fill s g todo jobs)).calls = p.calls.set j' (.fill s g todo jobs) := by
        obtain ⟨b', x⟩ := x; cases b' <;> rfl
      rw [hc] at hph
      simp only [calls_set k1, if_true, mover] at hph
      cases hph
      have := hO _ _ k1
      refine ⟨fun job hjob y hy => ?_, grow _ this.2.1, grow _ this.2.2⟩
      rcases List.mem_cons.1 hjob with rfl | hjob
      · exact this.1 _ (List.mem_cons_self ..) y (List.mem_cons_of_mem _ hy)
      · exact this.1 _ (List.mem_cons_of_mem _ hjob) y hy
    | put j' =>
      cases hj
      obtain ⟨s, g, jobs, k1, rfl⟩ := put_eq h1
      simp only [calls_set k1, if_true, mover] at hph
      cases hph
      have := hO _ _ k1
      have hJ : FromCalls cs jobs := fun job hjob => this.1 job (List.mem_cons_of_mem _ hjob)
      have g1 := grow _ this.2.1
      have g2 := grow _ this.2.2
      unfold result
      split
      · exact ⟨hJ, g1⟩
      · split
        · exact ⟨hJ, g2⟩
        · exact hJ
    | start j' =>
      cases hj
      rcases start_eq h1 with ⟨m, jobs, k1, rfl⟩ | ⟨jobs, k1, rfl⟩
      · simp only [setCall, calls_set k1, if_true, mover] at hph
        cases hph
        have := hO _ _ k1
        exact ⟨this.1, grow _ this.2⟩
      · simp only [setCall, calls_set k1, if_true, mover] at hph
        cases hph
        exact hO _ _ k1
    | read j' x =>
      cases hj
      obtain ⟨m, owed, seen, jobs, c', k1, k2, k3, _, rfl⟩ := read_eq h1
      simp only [setCall, calls_set k1, if_true, mover] at hph
      cases hph
      have := hO _ _ k1
      cases ht : c'.test x with
      | true =>
        rw [ht] at grow
        simp only [if_true]
        intro _ c2 hc2
        rw [show cs[j']? = some c2 from hc2] at k2; cases k2
        exact ⟨x, this.2.2 x k3, ht⟩
      | false =>
        rw [ht] at grow
        simp only [Bool.false_eq_true, if_false] at grow ⊢
        exact ⟨this.1, grow _ this.2⟩
    | stop j' =>
      cases hj
      obtain ⟨m, owed, seen, jobs, k1, _, rfl⟩ := stop_eq h1
      simp only [setCall, calls_set k1, if_true, mover] at hph
      cases hph
      exact (hO _ _ k1).1
    | deny j' =>
      cases hj
      obtain ⟨k1, rfl⟩ := deny_eq h1
      simp only [setCall, calls_set k1, if_true, mover] at hph
      cases hph
      intro hb; cases hb

/-- C57. Whatever the schedule, a grant rests on a permission that some call resolved: its own or another's. -/
theorem C57_worst (hs : Start cs p) {mvs : List Move} (h : p.exec cs mvs = some p') {i : Nat} {c : Call} (hc : cs[i]? = some c)
    (hb : p'.calls[i]? = some (.done true)) : ∃ c' ∈ cs, ∃ job ∈ c'.jobs, ∃ x ∈ job, c.test x.2 = true := by
  suffices hO : ∀ j ph, p'.calls[j]? = some ph → Own cs p' j ph by
    obtain ⟨x, ⟨c', h1, job, h2, y, h3, rfl⟩, h4⟩ := hO i _ hb rfl c hc
    exact ⟨c', h1, job, h2, y, h3, h4⟩
  have hO : ∀ j ph, p.calls[j]? = some ph → Own cs p j ph := by
    intro j ph hph
    rw [hs.1, List.getElem?_map] at hph
    obtain ⟨c', k1, rfl⟩ := Option.map_eq_some_iff.1 hph
    exact fun job hj y hy => ⟨c', List.mem_of_getElem? k1, job, hj, y, hy, rfl⟩
  have sh := shape_start hs
  clear hb hs
  induction mvs generalizing p with
  | nil => cases h; exact hO
  | cons mv mvs ih =>
    obtain ⟨q, h1, h2⟩ := exec_cons h
    exact ih h2 (own_step sh hO h1) (shape_step sh h1)

/-! ## Calls of `Authorize` and `Can` -/

end Pools

section link
variable {w : V2} {e : Env}
open V2

/-- The first loop of the traversal of `resolvePrincipalPermissions`, started in state `v` for target tenant `k`,
ends with `acc`; the role cache and the log in `v` may be as any `Authorize` call on `w` leaves them. -/
def PermWrites (w : V2) (e : Env) (r : Req2) (k : Nat) (ns : Str) (job : List (Bool × Str)) : Prop :=
  ∃ v fuel site K acc, Run (·.perms) w v ∧
    v.traverse e site r.principal (fun tid s => Out.loop (v.permRow e fuel site r.principal ns r.scope tid) s v.userRoles.zipIdx)
      fuel k ([], { dag := v.dag }) = .ok (K, acc) ∧
    ∀ x, ((true, x) ∈ job ↔ x ∈ acc.scopedP) ∧ ((false, x) ∈ job ↔ x ∈ acc.globalP)

/-- The same for `resolvePrincipalRoles`. -/
def RoleWrites (w : V2) (e : Env) (r : Req2) (k : Nat) (ns : Str) (job : List (Bool × Str)) : Prop :=
  ∃ v fuel site K acc, Run (fun o => [o.name]) w v ∧
    v.traverse e site r.principal (fun tid s => Out.loop (v.roleRow e fuel site r.principal ns tid) s v.userRoles.zipIdx)
      fuel k ([], { dag := v.dag }) = .ok (K, acc) ∧
    ∀ x, ((true, x) ∈ job ↔ x ∈ acc.roles) ∧ (false, x) ∉ job

/-- The call makes a resolution for each target tenant in which the request has a place, and for no other. -/
structure Serves (w : V2) (r : Req2) (W : Nat → Str → List (Bool × Str) → Prop) (c : Call) : Prop where
  only : ∀ job ∈ c.jobs, ∃ k t ns, Target w r k ∧ w.tobjs[k]? = some t ∧ Place t r ns ∧ W k ns job
  all : ∀ k t ns, Target w r k → w.tobjs[k]? = some t → Place t r ns → ∃ job ∈ c.jobs, W k ns job

/-- The call is `Authorize` with request `r`. -/
def IsAuthorize (w : V2) (e : Env) (r : Req2) (c : Call) : Prop :=
  Serves w r (PermWrites w e r) c ∧ ∀ x, c.test x = true ↔ Permits x r

/-- The call is `Can` with request `r` and the given roles. -/
def IsCan (w : V2) (e : Env) (r : Req2) (roles : List Str) (c : Call) : Prop :=
  Serves w r (RoleWrites w e r) c ∧ ∀ x, c.test x = true ↔ x ∈ roles

theorem mem_scopedOf {job : List (Bool × Str)} {x : Str} : x ∈ scopedOf job ↔ (true, x) ∈ job := by
  simp [scopedOf]

theorem mem_globalOf {job : List (Bool × Str)} {x : Str} : x ∈ globalOf job ↔ (false, x) ∈ job := by
  simp [globalOf]

theorem mem_chosen {job : List (Bool × Str)} {x : Str} :
    x ∈ chosen job ↔ (true, x) ∈ job ∨ ((∀ y, (true, y) ∉ job) ∧ (false, x) ∈ job) := by
  unfold chosen
  split
  · rename_i h
    have hn : ∀ y, (true, y) ∉ job := fun y hy => by
      have := mem_scopedOf.2 hy; rw [h] at this; cases this
    rw [mem_globalOf]; simp [hn]
  · rename_i h
    obtain ⟨y, hy⟩ := List.exists_mem_of_ne_nil _ h
    rw [mem_scopedOf]
    exact ⟨.inl, fun h => h.elim id fun h => absurd (mem_scopedOf.1 hy) (h.1 y)⟩

theorem run_noTwins {emit : R2 → List Str} {v : V2} (h : Run emit w v) {p : Str} {c : Nat} (tw : NoTwins w p c) : NoTwins v p c :=
  h.frame.noTwins.2 tw

theorem permWrites_chosen (inv : Inv w) {now : Int} (st : Steady w e now) {r : Req2} {k : Nat} (tw : NoTwins w r.principal k)
    {ns : Str} {job : List (Bool × Str)} (h : PermWrites w e r k ns job) (x : Str) : x ∈ chosen job ↔ UsedPerm w now r k ns x := by
  obtain ⟨v, fuel, site, K, acc, h1, h2, h3⟩ := h
  obtain ⟨k1, k2⟩ := traverse_visits (h1.inv inv) (run_noTwins h1 tw) h2
  obtain ⟨-, m2, m3⟩ := permVisits_spec (DagOK.refl (h1.inv inv) _) k1
  have hK : ∀ y, y ∈ K ↔ Covers w r.principal k y := fun y => (k2 y).trans h1.frame.covers
  have hres : ∀ a b, v.dag.Resolves (·.perms) a b ↔ RolePerm w.dag a b := h1.dag.res
  have hs : ∀ y, (true, y) ∈ job ↔ ScopedPerm w now r k ns y := fun y => by
    rw [(h3 y).1, m2, ← scopedAt_iff (site := site) st hK]
    unfold ScopedAt
    simp [h1.frame.rowAt, hres]
  have hg : (∀ y, (true, y) ∉ job) → ∀ y, (false, y) ∈ job ↔ UnscopedPerm w now r k ns y := fun hn y => by
    rw [(h3 y).2, m3, ← unscopedAt_iff (site := site) st hK]
    unfold UnscopedAt
    simp only [h1.frame.rowAt, hres, List.not_mem_nil, false_or]
    constructor
    · rintro ⟨tid, a1, i, u, a2, a3, _, a4, a5⟩; exact ⟨tid, a1, i, u, a2, a3, a4, a5⟩
    · rintro ⟨tid, a1, i, u, a2, a3, a4, a5⟩
      refine ⟨tid, a1, i, u, a2, a3, fun hsc => hn y ((hs y).2 ?_), a4, a5⟩
      exact (scopedAt_iff (site := site) st hK y).1 ⟨tid, a1, i, u, a2, a3, hsc, a5⟩
  rw [mem_chosen, hs]
  unfold UsedPerm
  refine or_congr_right ?_
  constructor
  · rintro ⟨g1, g2⟩; exact ⟨fun y hy => g1 y ((hs y).2 hy), (hg g1 x).1 g2⟩
  · rintro ⟨g1, g2⟩
    have g1 : ∀ y, (true, y) ∉ job := fun y hy => g1 y ((hs y).1 hy)
    exact ⟨g1, (hg g1 x).2 g2⟩

theorem roleWrites_chosen (inv : Inv w) {now : Int} (st : Steady w e now) {r : Req2} {k : Nat} (tw : NoTwins w r.principal k)
    {ns : Str} {job : List (Bool × Str)} (h : RoleWrites w e r k ns job) (x : Str) : x ∈ chosen job ↔ HeldRole w now r k ns x := by
  obtain ⟨v, fuel, site, K, acc, h1, h2, h3⟩ := h
  obtain ⟨k1, k2⟩ := traverse_visits (h1.inv inv) (run_noTwins h1 tw) h2
  obtain ⟨-, m2⟩ := roleVisits_spec (DagOK.refl (h1.inv inv) _) k1
  have hK : ∀ y, y ∈ K ↔ Covers w r.principal k y := fun y => (k2 y).trans h1.frame.covers
  have hres : ∀ a b, v.dag.Resolves (fun o => [o.name]) a b ↔ RoleBelow w.dag a b := fun a b =>
    (h1.dag.res a b).trans (Dag.resolves_names inv.dag)
  rw [mem_chosen, (h3 x).1, m2, ← heldAt_iff (site := site) st hK]
  unfold HeldAt
  simp [h1.frame.rowAt, hres, (h3 x).2]

/-- C57. The call that runs alone: `Authorize` answers as specified (compare `C49_exact_partial`). -/
theorem C57_alone_authorize (inv : Inv w) {now : Int} (st : Steady w e now) {r : Req2}
    (tw : ∀ c, Target w r c → NoTwins w r.principal c) {c : Call} (h : IsAuthorize w e r c) : Alone c ↔ Grants2 w now r := by
  unfold Alone Grants2
  constructor
  · rintro ⟨job, g1, x, g2, g3⟩
    obtain ⟨k, t, ns, a1, a2, a3, a4⟩ := h.1.only job g1
    exact ⟨k, t, ns, x, a1, a2, a3, (permWrites_chosen inv st (tw k a1) a4 x).1 g2, (h.2 x).1 g3⟩
  · rintro ⟨k, t, ns, x, a1, a2, a3, a4, a5⟩
    obtain ⟨job, g1, g2⟩ := h.1.all k t ns a1 a2 a3
    exact ⟨job, g1, x, (permWrites_chosen inv st (tw k a1) g2 x).2 a4, (h.2 x).2 a5⟩

/-- C57. The call that runs alone: `Can` answers as specified (compare `C54_exact_partial`). -/
theorem C57_alone_can (inv : Inv w) {now : Int} (st : Steady w e now) {r : Req2} {roles : List Str}
    (tw : ∀ c, Target w r c → NoTwins w r.principal c) {c : Call} (h : IsCan w e r roles c) : Alone c ↔ Can2 w now r roles := by
  unfold Alone Can2
  constructor
  · rintro ⟨job, g1, x, g2, g3⟩
    obtain ⟨k, t, ns, a1, a2, a3, a4⟩ := h.1.only job g1
    exact ⟨k, t, ns, x, a1, a2, a3, (h.2 x).1 g3, (roleWrites_chosen inv st (tw k a1) a4 x).1 g2⟩
  · rintro ⟨k, t, ns, x, a1, a2, a3, a5, a4⟩
    obtain ⟨job, g1, g2⟩ := h.1.all k t ns a1 a2 a3
    exact ⟨job, g1, x, (roleWrites_chosen inv st (tw k a1) g2 x).2 a4, (h.2 x).2 a5⟩

/-- C57. The list of writes is the one `V2.authorize` makes: its answer is the answer of the call alone. -/
theorem C57_authorize (inv : Inv w) {now : Int} (st : Steady w e now) {r : Req2}
    (tw : ∀ c, Target w r c → NoTwins w r.principal c) {c : Call} (h : IsAuthorize w e r c) {fuel : Nat} {site : List Val}
    {b : Bool} {w' : V2} (ha : w.authorize e fuel site r = .ok (b, w')) : b = true ↔ Alone c :=
  (C49_exact_partial inv st tw ha).trans (C57_alone_authorize inv st tw h).symm

/-- C57. The same for `V2.can`. -/
theorem C57_can (inv : Inv w) {now : Int} (st : Steady w e now) {r : Req2} {roles : List Str}
    (tw : ∀ c, Target w r c → NoTwins w r.principal c) {c : Call} (h : IsCan w e r roles c) {fuel : Nat} {site : List Val}
    {b : Bool} {w' : V2} (ha : w.can e fuel site r roles = .ok (b, w')) : b = true ↔ Alone c :=
  (C54_exact_partial inv st tw ha).trans (C57_alone_can inv st tw h).symm

/-- Calls built from one resolution per place. -/
theorem serves_exists (inv : Inv w) {r : Req2} {W : Nat → Str → List (Bool × Str) → Prop} (test : Str → Bool)
    (hn : none ∉ w.userRoles) (hW : ∀ k t ns, w.tobjs[k]? = some t → ∃ job, W k ns job) : ∃ c : Call, Serves w r W c ∧ c.test = test := by
  -- the targets form a finite list
  obtain ⟨ts, hts⟩ : ∃ ts : List Nat, ∀ k, k ∈ ts ↔ Target w r k := by
    obtain ⟨o, ho⟩ := findTargets_total (o := .fwd) (site := []) inv hn r
    obtain ⟨k1, k2⟩ := findTargets_spec inv ho
    cases o with
    | none => exact ⟨[], fun k => ⟨fun h => (by cases h), fun h => absurd h (not_target (k2.1 rfl) k)⟩⟩
    | some cs => exact ⟨cs, (k1 cs rfl).2⟩
  suffices ∃ jobs, (∀ job ∈ jobs, ∃ k t ns, k ∈ ts ∧ w.tobjs[k]? = some t ∧ Place t r ns ∧ W k ns job) ∧
      ∀ k t ns, k ∈ ts → w.tobjs[k]? = some t → Place t r ns → ∃ job ∈ jobs, W k ns job by
    obtain ⟨jobs, h1, h2⟩ := this
    exact ⟨⟨jobs, test⟩, ⟨fun job hj => by simpa only [hts] using h1 job hj, fun k t ns hk => h2 k t ns ((hts k).2 hk)⟩, rfl⟩
  clear hts
  induction ts with
  | nil => exact ⟨[], fun _ h => (by cases h), fun _ _ _ h => (by cases h)⟩
  | cons k ts ih =>
    obtain ⟨jobs, h1, h2⟩ := ih
    have h1' : ∀ job ∈ jobs, ∃ k' t ns, k' ∈ k :: ts ∧ w.tobjs[k']? = some t ∧ Place t r ns ∧ W k' ns job := fun job hj => by
      obtain ⟨k', t, ns, g1, g2⟩ := h1 job hj
      exact ⟨k', t, ns, List.mem_cons_of_mem _ g1, g2⟩
    by_cases hp : ∃ t ns, w.tobjs[k]? = some t ∧ Place t r ns
    · obtain ⟨t, ns, ht, hp⟩ := hp
      obtain ⟨job, hj⟩ := hW k t ns ht
      refine ⟨job :: jobs, fun j hj' => ?_, fun k' t' ns' hk ht' hp' => ?_⟩
      · rcases List.mem_cons.1 hj' with rfl | hj'
        · exact ⟨k, t, ns, List.mem_cons_self .., ht, hp, hj⟩
        · exact h1' j hj'
      · rcases List.mem_cons.1 hk with rfl | hk
        · rw [ht] at ht'; cases ht'
          rw [place_unique (inv.nsWF t (List.mem_of_getElem? ht)) hp' hp]
          exact ⟨job, List.mem_cons_self .., hj⟩
        · obtain ⟨j, g1, g2⟩ := h2 k' t' ns' hk ht' hp'
          exact ⟨j, List.mem_cons_of_mem _ g1, g2⟩
    · refine ⟨jobs, h1', fun k' t' ns' hk ht' hp' => ?_⟩
      rcases List.mem_cons.1 hk with rfl | hk
      · exact absurd ⟨t', ns', ht', hp'⟩ hp
      · exact h2 k' t' ns' hk ht' hp'

/-- C57. Without nil assignments every request is such a call. -/
theorem C57_calls_exist (inv : Inv w) (hn : none ∉ w.userRoles) (e : Env) (r : Req2) (roles : List Str) :
    (∃ c, IsAuthorize w e r c) ∧ ∃ c, IsCan w e r roles c := by
  classical
  constructor
  · obtain ⟨c, h1, h2⟩ := serves_exists (r := r) (W := PermWrites w e r) inv (fun x => decide (Permits x r)) hn fun k t ns ht => by
      obtain ⟨⟨K, acc⟩, h1, _⟩ := traverse_total (e := e) (site := []) (p := r.principal) inv hn (P := fun s => DagOK w (·.perms) s.dag)
        (visit := fun tid s => Out.loop (w.permRow e (w.roleFuel + w.tobjs.length + 1) [] r.principal ns r.scope tid) s w.userRoles.zipIdx)
        (fun x s hs => Out.loop_total (fun s xi hxi hs => by
          obtain ⟨y, i⟩ := xi
          have hy := List.mem_of_getElem? (mem_zipIdx_iff.1 hxi)
          exact permRow_total inv (by omega) hy (fun h => hn (h ▸ hy)) hs) hs)
        ⟨t, ht⟩ (n := w.roleFuel + w.tobjs.length + 1) (st := ([], { dag := w.dag })) (DagOK.refl inv _)
        (Nat.lt_of_le_of_lt (unchecked_le _) (by omega))
      exact ⟨acc.scopedP.map (true, ·) ++ acc.globalP.map (false, ·), w, _, [], K, acc, .refl inv _, h1, fun x => by simp⟩
    exact ⟨c, h1, fun x => by rw [h2]; simp⟩
  · obtain ⟨c, h1, h2⟩ := serves_exists (r := r) (W := RoleWrites w e r) inv (fun x => decide (x ∈ roles)) hn fun k t ns ht => by
      obtain ⟨⟨K, acc⟩, h1, _⟩ := traverse_total (e := e) (site := []) (p := r.principal) inv hn (P := fun s => DagOK w (fun o => [o.name]) s.dag)
        (visit := fun tid s => Out.loop (w.roleRow e (w.roleFuel + w.tobjs.length + 1) [] r.principal ns tid) s w.userRoles.zipIdx)
        (fun x s hs => Out.loop_total (fun s xi hxi hs => by
          obtain ⟨y, i⟩ := xi
          have hy := List.mem_of_getElem? (mem_zipIdx_iff.1 hxi)
          exact roleRow_total inv (by omega) hy (fun h => hn (h ▸ hy)) hs) hs)
        ⟨t, ht⟩ (n := w.roleFuel + w.tobjs.length + 1) (st := ([], { dag := w.dag })) (DagOK.refl inv _)
        (Nat.lt_of_le_of_lt (unchecked_le _) (by omega))
      exact ⟨acc.roles.map (true, ·), w, _, [], K, acc, .refl inv _, h1, fun x => by simp⟩
    exact ⟨c, h1, fun x => by rw [h2]; simp⟩

/-- C57. An undisturbed `Authorize` among any other calls, on any authorizers, answers as specified. -/
theorem C57_exact_partial (inv : Inv w) {now : Int} (st : Steady w e now) {r : Req2}
    (tw : ∀ c, Target w r c → NoTwins w r.principal c) {cs : List Call} {p p' : Pools} (hs : Pools.Start cs p) {mvs : List Move}
    (h : p.exec cs mvs = some p') {i : Nat} {c : Call} (hc : cs[i]? = some c) (ha : IsAuthorize w e r c)
    (hu : Pools.Undisturbed cs i p mvs) {b : Bool} (hb : p'.calls[i]? = some (.done b)) : b = true ↔ Grants2 w now r :=
  (Pools.C57_undisturbed_partial hs h hc hu hb).trans (C57_alone_authorize inv st tw ha)

/-- C57. The same for `Can`. -/
theorem C57_can_exact_partial (inv : Inv w) {now : Int} (st : Steady w e now) {r : Req2} {roles : List Str}
    (tw : ∀ c, Target w r c → NoTwins w r.principal c) {cs : List Call} {p p' : Pools} (hs : Pools.Start cs p) {mvs : List Move}
    (h : p.exec cs mvs = some p') {i : Nat} {c : Call} (hc : cs[i]? = some c) (ha : IsCan w e r roles c)
    (hu : Pools.Undisturbed cs i p mvs) {b : Bool} (hb : p'.calls[i]? = some (.done b)) : b = true ↔ Can2 w now r roles :=
  (Pools.C57_undisturbed_partial hs h hc hu hb).trans (C57_alone_can inv st tw ha)

end link

namespace Pools

/-! ## Counterexamples -/

/-- C57 as intended: every schedule gives every call the answer it would get alone. -/
def C57_full : Prop := ∀ (cs : List Call) (p : Pools) (mvs : List Move) (p' : Pools) (i : Nat) (c : Call) (b : Bool), Start cs p → p.exec cs mvs = some p' → cs[i]? = some c →
  p'.calls[i]? = some (.done b) → (b = true ↔ Alone c)

/-- Call 0 has permission "x read" and asks for "y read"; call 1 has permission "y read" and asks for "y read". -/
def exCalls : List Call := [
  { jobs := [[(true, str "x read")]], test := fun x => x == str "y read" },
  { jobs := [[(true, str "y read")]], test := fun x => x == str "y read" }]

def exStart : Pools := { calls := exCalls.map fun c => .idle c.jobs }

/-- Call 1 resolves with the map that call 0 is about to check. -/
def exMix : List Move := [.get 0 none none, .write 0, .put 0, .get 1 (some 0) (some 0), .write 1, .start 0, .read 0 (str "y read")]

/-- The map of call 1 is cleared by call 0 before call 1 checks it. -/
def exLost : List Move := [.get 1 none none, .write 1, .put 1, .get 0 (some 0) (some 0), .start 1, .stop 1, .deny 1]

/-- C57. Call 0 is granted the permission of call 1. -/
theorem C57_mixed : ∃ p, exStart.exec exCalls exMix = some p ∧ p.calls[0]? = some (.done true) := by
  refine ⟨(exStart.exec exCalls exMix).getD {}, ?_, ?_⟩ <;> decide +kernel

/-- C57. Call 1 is denied its own permission. -/
theorem C57_lost : ∃ p, exStart.exec exCalls exLost = some p ∧ p.calls[1]? = some (.done false) := by
  refine ⟨(exStart.exec exCalls exLost).getD {}, ?_, ?_⟩ <;> decide +kernel

theorem exStart_start : Start exCalls exStart :=
  ⟨rfl, List.nodup_nil, List.nodup_nil, fun m hm => (by cases hm), fun m hm => (by cases hm)⟩

/-- C57. So the intended property fails. -/
theorem C57_full_false : ¬ C57_full := by
  intro h
  obtain ⟨p, h1, h2⟩ := C57_mixed
  obtain ⟨job, g1, x, g2, g3⟩ := (h exCalls exStart exMix p 0 _ true exStart_start h1 rfl h2).1 rfl
  rw [List.mem_singleton] at g1
  subst g1
  have : x = str "x read" := by
    have : x ∈ [str "x read"] := g2
    exact List.mem_singleton.1 this
  subst this
  exact absurd g3 (by decide +kernel)

/-- C57. An undisturbed schedule with a reused map: both calls overlap, call 1 starts after call 0 has checked. -/
example : ∃ p, exStart.exec exCalls [.get 0 none none, .write 0, .put 0, .start 0, .read 0 (str "x read"), .stop 0,
      .get 1 (some 0) (some 0), .write 1, .deny 0, .put 1, .start 1, .read 1 (str "y read")] = some p ∧
    p.calls = [.done false, .done true] := by
  refine ⟨(exStart.exec exCalls [.get 0 none none, .write 0, .put 0, .start 0, .read 0 (str "x read"), .stop 0,
      .get 1 (some 0) (some 0), .write 1, .deny 0, .put 1, .start 1, .read 1 (str "y read")]).getD {}, ?_, ?_⟩ <;> decide +kernel

end Pools
end Verif
