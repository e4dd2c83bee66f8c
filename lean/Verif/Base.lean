/-!
# Base: strings, dynamic values, outcomes, Go maps, iteration oracles

Shared vocabulary of the model.  No definition in this file models a particular
function of /repo; it fixes how Go's built-in notions are represented.
-/

namespace Verif

/-- A Go `string`: a finite sequence of bytes. -/
abbrev Str := List UInt8

/-- The bytes of a Lean string literal (UTF-8), as Go source literals are. -/
def str (s : String) : Str := s.toUTF8.data.toList

/-- A Go `any` holding a comparable dynamic value.  `int` stands for every comparable
dynamic type other than `string` and `bool`.  Equality is Go's `==` on interfaces:
equal dynamic type and equal value.  Uncomparable dynamic types (they panic in Go when
compared or hashed) are not represented. -/
inductive Val where
  | nil
  | str (s : Str)
  | bool (b : Bool)
  | int (n : Int)
  deriving DecidableEq, Repr

/-- Outcome of a Go call: it returns a value, panics, or never returns
(endless loop, or unbounded recursion ending in a stack overflow). -/
inductive Out (α : Type) where
  | ok (a : α)
  | panic
  | diverge
  deriving DecidableEq, Repr

namespace Out
variable {α β : Type}

def bind (x : Out α) (f : α → Out β) : Out β :=
  match x with
  | ok a => f a
  | panic => panic
  | diverge => diverge

def map (f : α → β) (x : Out α) : Out β := x.bind (fun a => ok (f a))

@[simp] theorem bind_ok (a : α) (f : α → Out β) : (ok a).bind f = f a := rfl
@[simp] theorem bind_panic (f : α → Out β) : (panic : Out α).bind f = panic := rfl
@[simp] theorem bind_diverge (f : α → Out β) : (diverge : Out α).bind f = diverge := rfl
@[simp] theorem map_ok (f : α → β) (a : α) : (ok a).map f = ok (f a) := rfl
@[simp] theorem map_panic (f : α → β) : (panic : Out α).map f = panic := rfl
@[simp] theorem map_diverge (f : α → β) : (diverge : Out α).map f = diverge := rfl

theorem bind_eq_ok {x : Out α} {f : α → Out β} {b : β} :
    x.bind f = ok b ↔ ∃ a, x = ok a ∧ f a = ok b := by
  cases x <;> simp

theorem map_eq_ok {x : Out α} {f : α → β} {b : β} :
    x.map f = ok b ↔ ∃ a, x = ok a ∧ f a = b := by
  cases x <;> simp

/-- The Go loop `for i, x := range xs { if f(i, x) { return true } }; return false`. -/
def anyI (f : Nat → α → Out Bool) : Nat → List α → Out Bool
  | _, [] => ok false
  | i, x :: xs =>
    match f i x with
    | ok true => ok true
    | ok false => anyI f (i + 1) xs
    | panic => panic
    | diverge => diverge

/-- The Go loop `for i, x := range xs { ys = append(ys, f(i, x)...) }`. -/
def collectI (f : Nat → α → Out (List β)) : Nat → List α → Out (List β)
  | _, [] => ok []
  | i, x :: xs => (f i x).bind fun ys => (collectI f (i + 1) xs).bind fun zs => ok (ys ++ zs)

/-- The Go loop `for _, x := range xs { ... }` updating a state. -/
def loop {σ : Type} {α : Type u} (f : σ → α → Out σ) : σ → List α → Out σ
  | s, [] => .ok s
  | s, x :: xs => (f s x).bind fun s' => loop f s' xs

theorem loop_inv {σ : Type} {α : Type u} {f : σ → α → Out σ} {P : σ → Prop} {xs : List α} {s s' : σ}
    (hf : ∀ s s', ∀ x ∈ xs, P s → f s x = .ok s' → P s') (h0 : P s) (h : loop f s xs = .ok s') : P s' := by
  induction xs generalizing s with
  | nil => cases h; exact h0
  | cons x xs ih =>
    rw [loop, bind_eq_ok] at h
    obtain ⟨s1, h1, h2⟩ := h
    exact ih (fun s s' y hy => hf s s' y (List.mem_cons_of_mem _ hy)) (hf _ _ _ (List.mem_cons_self ..) h0 h1) h2

theorem anyI_spec {f : Nat → α → Out Bool} {P : α → Prop} {xs : List α} {i : Nat} {b : Bool}
    (hf : ∀ j, ∀ x ∈ xs, ∀ c, f j x = ok c → (c = true ↔ P x))
    (h : anyI f i xs = ok b) : b = true ↔ ∃ x ∈ xs, P x := by
  induction xs generalizing i with
  | nil => simp [anyI] at h; simp [← h]
  | cons x xs ih =>
    have ih := ih (i := i + 1) (fun j y hy => hf j y (List.mem_cons_of_mem _ hy))
    have hx := hf i x (List.mem_cons_self ..)
    unfold anyI at h
    split at h
    · rename_i he
      have := (hx true he).1 rfl
      simp at h; subst h; simp [this]
    · rename_i he
      have hn : ¬ P x := fun hp => by simpa using (hx false he).2 hp
      rw [ih h]; simp [hn]
    · cases h
    · cases h

theorem anyI_total {f : Nat → α → Out Bool} {xs : List α} {i : Nat}
    (hf : ∀ j, ∀ x ∈ xs, ∃ c, f j x = ok c) : ∃ b, anyI f i xs = ok b := by
  induction xs generalizing i with
  | nil => exact ⟨false, rfl⟩
  | cons x xs ih =>
    obtain ⟨c, hc⟩ := hf i x (List.mem_cons_self ..)
    have := ih (i := i + 1) (fun j y hy => hf j y (List.mem_cons_of_mem _ hy))
    unfold anyI
    cases c <;> simp [hc, this]

theorem anyI_const_false {f : Nat → α → Out Bool} {xs : List α} {i : Nat}
    (hf : ∀ j, ∀ x ∈ xs, f j x = ok false) : anyI f i xs = ok false := by
  induction xs generalizing i with
  | nil => rfl
  | cons x xs ih =>
    unfold anyI
    rw [hf i x (List.mem_cons_self ..)]
    exact ih (fun j y hy => hf j y (List.mem_cons_of_mem _ hy))

theorem collectI_mem {f : Nat → α → Out (List β)} {P : α → β → Prop} {xs : List α} {i : Nat}
    {r : List β} (hf : ∀ j, ∀ x ∈ xs, ∀ ys, f j x = ok ys → ∀ y, y ∈ ys ↔ P x y)
    (h : collectI f i xs = ok r) (y : β) : y ∈ r ↔ ∃ x ∈ xs, P x y := by
  induction xs generalizing i r with
  | nil => simp [collectI] at h; simp [h]
  | cons x xs ih =>
    simp only [collectI, bind_eq_ok, ok.injEq] at h
    obtain ⟨ys, h1, zs, h2, rfl⟩ := h
    have := hf i x (List.mem_cons_self ..) ys h1 y
    have ih := ih (i := i + 1) (fun j y hy => hf j y (List.mem_cons_of_mem _ hy)) h2
    simp [this, ih]

theorem collectI_total {f : Nat → α → Out (List β)} {xs : List α} {i : Nat}
    (hf : ∀ j, ∀ x ∈ xs, ∃ c, f j x = ok c) : ∃ b, collectI f i xs = ok b := by
  induction xs generalizing i with
  | nil => exact ⟨[], rfl⟩
  | cons x xs ih =>
    obtain ⟨c, hc⟩ := hf i x (List.mem_cons_self ..)
    obtain ⟨d, hd⟩ := ih (i := i + 1) (fun j y hy => hf j y (List.mem_cons_of_mem _ hy))
    exact ⟨c ++ d, by simp [collectI, hc, hd]⟩

end Out

/-- Iteration-order oracle: for each loop execution (identified by a stamp) an arbitrary
permutation of the entries, as Go map iteration and `xsync`/`maps` `ForEach`/`Values` give. -/
structure Ord where
  ord : List Val → (α : Type) → List α → List α
  perm : ∀ s α l, (ord s α l).Perm l

namespace Ord

/-- Iterate in storage order. -/
def fwd : Ord := ⟨fun _ _ l => l, fun _ _ _ => .refl _⟩
/-- Iterate in reverse storage order. -/
def rev : Ord := ⟨fun _ _ l => l.reverse, fun _ _ l => l.reverse_perm⟩

@[simp] theorem mem_ord {o : Ord} {s : List Val} {α : Type} {l : List α} {x : α} :
    x ∈ o.ord s α l ↔ x ∈ l := (o.perm s α l).mem_iff

@[simp] theorem ord_nil {o : Ord} {s : List Val} {α : Type} : o.ord s α [] = [] :=
  (o.perm s α []).eq_nil

@[simp] theorem ord_length {o : Ord} {s : List Val} {α : Type} {l : List α} :
    (o.ord s α l).length = l.length := (o.perm s α l).length_eq

@[simp] theorem ord_singleton {o : Ord} {s : List Val} {α : Type} {x : α} :
    o.ord s α [x] = [x] := List.perm_singleton.1 (o.perm s α [x])

theorem ord_nodup {o : Ord} {s : List Val} {α : Type} {l : List α} :
    (o.ord s α l).Nodup ↔ l.Nodup := (o.perm s α l).nodup_iff

end Ord

/-- A Go map (built-in `map`, `xsync.IMap`, `maps.IMap`): association list, keys unique. -/
abbrev GoMap (κ ν : Type) := List (κ × ν)

namespace GoMap
variable {κ ν : Type} [DecidableEq κ]

/-- `m.Get(k)` / `v, ok := m[k]`. -/
def get (m : GoMap κ ν) (k : κ) : Option ν :=
  match m with
  | [] => none
  | (a, v) :: t => if a = k then some v else get t k

/-- `m.Set(k, v)` / `m[k] = v`. -/
def set (m : GoMap κ ν) (k : κ) (v : ν) : GoMap κ ν :=
  match m with
  | [] => [(k, v)]
  | (a, w) :: t => if a = k then (k, v) :: t else (a, w) :: set t k v

/-- `delete(m, k)`. -/
def del (m : GoMap κ ν) (k : κ) : GoMap κ ν := m.filter (fun e => e.1 ≠ k)

/-- The key list. -/
def keys (m : GoMap κ ν) : List κ := m.map (·.1)

/-- Representation invariant: no key occurs twice. -/
def WF (m : GoMap κ ν) : Prop := (m.map (·.1)).Nodup

@[simp] theorem get_nil (k : κ) : get ([] : GoMap κ ν) k = none := rfl

@[simp] theorem get_set (m : GoMap κ ν) (k k' : κ) (v : ν) :
    get (set m k v) k' = if k = k' then some v else get m k' := by
  induction m with
  | nil => simp [set, get]
  | cons e t ih =>
    obtain ⟨a, w⟩ := e
    simp only [set]
    split
    · rename_i h; subst h; simp only [get]; split <;> rfl
    · rename_i h
      simp only [get, ih]
      split
      · rename_i h2; subst h2; rw [if_neg (fun e => h e.symm)]
      · rfl

theorem get_some_mem {m : GoMap κ ν} {k : κ} {v : ν} (h : get m k = some v) : (k, v) ∈ m := by
  induction m with
  | nil => simp at h
  | cons e t ih =>
    obtain ⟨a, w⟩ := e
    simp only [get] at h
    split at h
    · rename_i h2; subst h2; simp at h; simp [h]
    · exact List.mem_cons_of_mem _ (ih h)

theorem get_none_iff {m : GoMap κ ν} {k : κ} : get m k = none ↔ k ∉ m.map (·.1) := by
  induction m with
  | nil => simp
  | cons e t ih =>
    obtain ⟨a, w⟩ := e
    simp only [get]
    split
    · rename_i h; subst h; simp
    · rename_i h
      rw [ih, List.map_cons, List.mem_cons]
      simp only [not_or]
      exact ⟨fun x => ⟨fun e => h e.symm, x⟩, fun x => x.2⟩

theorem get_isSome_iff {m : GoMap κ ν} {k : κ} : (get m k).isSome ↔ k ∈ m.map (·.1) := by
  cases h : get m k with
  | none => simpa using get_none_iff.1 h
  | some v => simpa using ⟨v, get_some_mem h⟩

theorem mem_iff_get {m : GoMap κ ν} (wf : WF m) {k : κ} {v : ν} :
    (k, v) ∈ m ↔ get m k = some v := by
  refine ⟨fun h => ?_, get_some_mem⟩
  induction m with
  | nil => simp at h
  | cons e t ih =>
    obtain ⟨a, w⟩ := e
    simp only [WF, List.map_cons, List.nodup_cons] at wf
    simp only [get]
    rcases List.mem_cons.1 h with h | h
    · cases h; simp
    · have hk : k ∈ t.map (·.1) := List.mem_map.2 ⟨_, h, rfl⟩
      rw [if_neg (fun (e : a = k) => wf.1 (e ▸ hk))]
      exact ih wf.2 h

theorem keys_set (m : GoMap κ ν) (k : κ) (v : ν) :
    (set m k v).map (·.1) = if k ∈ m.map (·.1) then m.map (·.1) else m.map (·.1) ++ [k] := by
  induction m with
  | nil => simp [set]
  | cons e t ih =>
    obtain ⟨a, w⟩ := e
    simp only [set]
    by_cases h : a = k
    · subst h; simp
    · rw [if_neg h]
      simp only [List.map_cons, ih, List.mem_cons]
      by_cases h2 : k ∈ t.map (·.1)
      · rw [if_pos h2, if_pos (Or.inr h2)]
      · rw [if_neg h2, if_neg (by simp [h2]; exact fun e => h e.symm)]; rfl

omit [DecidableEq κ] in
theorem wf_nil : WF ([] : GoMap κ ν) := List.nodup_nil

theorem wf_set {m : GoMap κ ν} (wf : WF m) (k : κ) (v : ν) : WF (set m k v) := by
  unfold WF at *
  rw [keys_set]
  split
  · exact wf
  · rename_i h
    rw [List.nodup_append]
    refine ⟨wf, by simp, ?_⟩
    intro a ha b hb e
    rw [List.mem_singleton] at hb
    subst hb; subst e; exact h ha

theorem wf_del {m : GoMap κ ν} (wf : WF m) (k : κ) : WF (del m k) :=
  List.Nodup.sublist (List.Sublist.map _ List.filter_sublist) wf

theorem get_del (m : GoMap κ ν) (k k' : κ) :
    get (del m k) k' = if k = k' then none else get m k' := by
  induction m with
  | nil => simp [del]
  | cons e t ih =>
    obtain ⟨a, w⟩ := e
    simp only [del] at ih ⊢
    rw [List.filter_cons]
    by_cases h : a = k
    · subst h
      simp only [ne_eq, not_true, decide_false, Bool.false_eq_true, if_false, ih, get]
      split <;> rfl
    · simp only [ne_eq, h, not_false_iff, decide_true, if_true, get, ih]
      split
      · rename_i h2; subst h2; rw [if_neg (fun e => h e.symm)]
      · rfl

theorem mem_set_iff {m : GoMap κ ν} (wf : WF m) {k : κ} {v : ν} {e : κ × ν} :
    e ∈ set m k v ↔ e = (k, v) ∨ (e.1 ≠ k ∧ e ∈ m) := by
  obtain ⟨a, w⟩ := e
  rw [mem_iff_get (wf_set wf k v), get_set]
  by_cases h : k = a
  · subst h; simp [eq_comm]
  · rw [if_neg h, ← mem_iff_get wf]
    constructor
    · exact fun hm => Or.inr ⟨fun e => h e.symm, hm⟩
    · rintro (e | e)
      · cases e; exact absurd rfl h
      · exact e.2

end GoMap

end Verif
