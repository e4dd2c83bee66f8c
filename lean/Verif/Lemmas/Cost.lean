import Verif.Model.Cost
import Verif.Spec.Cost
import Verif.Lemmas.Role

namespace Verif
open Spec

/-- `q` to the number of links before the last, times `f` at the end, over all walks with 1 to `n` links. -/
def geo (kids : Nat → List Nat) (q : Nat) (f : Nat → Nat) : Nat → Nat → Nat
  | 0, _ => 0
  | n + 1, r => ((kids r).map fun c => f c + q * geo kids q f n c).sum

section geo
variable {kids : Nat → List Nat} {q : Nat} {f : Nat → Nat}

theorem sum_add {α : Type} (l : List α) (f g : α → Nat) :
    (l.map fun x => f x + g x).sum = (l.map f).sum + (l.map g).sum := by
  induction l with
  | nil => rfl
  | cons a l ih => simp only [List.map_cons, List.sum_cons, ih]; omega

theorem sum_mul {α : Type} (l : List α) (q : Nat) (f : α → Nat) :
    (l.map fun x => q * f x).sum = q * (l.map f).sum := by
  induction l with
  | nil => rfl
  | cons a l ih => simp only [List.map_cons, List.sum_cons, ih, Nat.mul_add]

theorem sum_zero {α : Type} (l : List α) : (l.map fun _ => 0).sum = 0 := by
  induction l with
  | nil => rfl
  | cons a l ih => simp only [List.map_cons, List.sum_cons, ih]

theorem sum_comm {α β : Type} (l : List α) (m : List β) (f : α → β → Nat) :
    (l.map fun x => (m.map fun y => f x y).sum).sum = (m.map fun y => (l.map fun x => f x y).sum).sum := by
  induction l with
  | nil => simp only [List.map_nil, List.sum_nil, sum_zero]
  | cons a l ih => simp only [List.map_cons, List.sum_cons, ih, sum_add]

theorem sum_congr {α : Type} {l : List α} {f g : α → Nat} (h : ∀ x ∈ l, f x = g x) : (l.map f).sum = (l.map g).sum := by
  rw [List.map_congr_left h]

theorem sum_le {α : Type} {l : List α} {f g : α → Nat} (h : ∀ x ∈ l, f x ≤ g x) : (l.map f).sum ≤ (l.map g).sum := by
  induction l with
  | nil => exact Nat.le_refl _
  | cons a l ih =>
    simp only [List.map_cons, List.sum_cons]
    have := h a (by simp)
    have := ih fun x hx => h x (by simp [hx])
    omega

theorem sumTo_succ (n : Nat) (g : Nat → Nat) : sumTo (n + 1) g = g 0 + sumTo n fun k => g (k + 1) := by
  unfold sumTo
  rw [List.range_succ_eq_map, List.map_cons, List.sum_cons, List.map_map]
  rfl

theorem geo_eq (n r : Nat) : geo kids q f n r = sumTo n fun k => q ^ k * walkSum kids f (k + 1) r := by
  induction n generalizing r with
  | zero => rfl
  | succ n ih =>
    rw [geo, sum_add, sumTo_succ]
    congr 1
    · simp only [Nat.pow_zero, Nat.one_mul]; rfl
    · simp only [ih]
      unfold sumTo
      simp only [← sum_mul]
      rw [sum_comm]
      refine sum_congr fun k _ => ?_
      rw [show (fun x => q * (q ^ k * walkSum kids f (k + 1) x)) = fun x => (q ^ (k + 1)) * walkSum kids f (k + 1) x from
        funext fun x => by rw [← Nat.mul_assoc, Nat.pow_succ']]
      rw [sum_mul]; rfl

theorem sum_eq_zero {α : Type} {l : List α} {f : α → Nat} (h : (l.map f).sum = 0) : ∀ x ∈ l, f x = 0 := by
  induction l with
  | nil => simp
  | cons a l ih =>
    simp only [List.map_cons, List.sum_cons] at h
    intro x hx
    rcases List.mem_cons.1 hx with rfl | hx
    · omega
    · exact ih (by omega) x hx

theorem geo_high {H r : Nat} (hH : walks kids (H + 1) r = 0) {m : Nat} (hm : H ≤ m) : geo kids q f m r = geo kids q f H r := by
  induction H generalizing r m with
  | zero =>
    cases m with
    | zero => rfl
    | succ m =>
      have : kids r = [] := by
        cases hk : kids r with
        | nil => rfl
        | cons a l =>
          unfold walks walkSum at hH
          rw [hk] at hH
          simp [walkSum] at hH
      simp [geo, this]
  | succ H ih =>
    obtain ⟨m, rfl⟩ : ∃ m', m = m' + 1 := ⟨m - 1, by omega⟩
    rw [geo, geo]
    refine sum_congr fun c hc => ?_
    rw [ih (sum_eq_zero (show ((kids r).map (walks kids (H + 1))).sum = 0 from hH) c hc) (by omega)]

end geo

namespace Out
variable {α β : Type}

/-- What a collecting loop adds up to. -/
theorem collectI_sum {f : Nat → α → Out (List β)} {xs : List α} {i : Nat} {r : List β} {g : β → Nat} {G : α → Nat}
    (hf : ∀ j, ∀ x ∈ xs, ∀ ys, f j x = ok ys → (ys.map g).sum = G x) (h : collectI f i xs = ok r) :
    (r.map g).sum = (xs.map G).sum := by
  induction xs generalizing i r with
  | nil => simp only [collectI, ok.injEq] at h; subst h; rfl
  | cons x xs ih =>
    simp only [collectI, bind_eq_ok, ok.injEq] at h
    obtain ⟨ys, h1, zs, h2, rfl⟩ := h
    rw [List.map_append, List.sum_append, hf i x (by simp) ys h1, ih (fun j y hy => hf j y (by simp [hy])) h2]
    rfl

end Out

theorem perm_sum {α : Type} {l l' : List α} (h : l.Perm l') (f : α → Nat) : (l.map f).sum = (l'.map f).sum := by
  induction h with
  | nil => rfl
  | cons x _ ih => simp only [List.map_cons, List.sum_cons, ih]
  | swap x y l => simp only [List.map_cons, List.sum_cons]; omega
  | trans _ _ ih1 ih2 => rw [ih1, ih2]

namespace RHeap
variable {h : RHeap} {o : Ord} {q : Nat} {f : Nat → Nat}

theorem roleKids_some {r : Nat} {ro : RoleObj} (hr : h.roles[r]? = some ro) : roleKids h r = ro.desc.map (·.2) := by
  unfold roleKids; rw [hr]

theorem geo_stable {n : Nat} {site : List Val} {r : Nat} {ds : List Nat} (hd : descRoles h o n site r = .ok ds)
    {m : Nat} (hm : n ≤ m) : geo (roleKids h) q f m r = geo (roleKids h) q f n r := by
  induction n generalizing site r ds m with
  | zero => cases hd
  | succ n ih =>
    obtain ⟨m, rfl⟩ : ∃ m', m = m' + 1 := ⟨m - 1, by omega⟩
    rw [descRoles_succ] at hd
    cases hr : h.roles[r]? with
    | none => rw [hr] at hd; cases hd
    | some ro =>
      rw [hr] at hd
      simp only at hd
      rw [geo, geo, roleKids_some hr]
      refine sum_congr fun c hc => ?_
      obtain ⟨e, he, rfl⟩ := List.mem_map.1 hc
      obtain ⟨j, ys, hy⟩ := Out.collectI_all hd e (Ord.mem_ord.2 he)
      rw [Out.map_eq_ok] at hy
      obtain ⟨ds', h1, _⟩ := hy
      rw [ih h1 (by omega)]

/-- What the list of descendants adds up to. -/
theorem descRoles_sum {n : Nat} {site : List Val} {r : Nat} {ds : List Nat} (hd : descRoles h o n site r = .ok ds)
    (f : Nat → Nat) : (ds.map f).sum = geo (roleKids h) 1 f n r := by
  induction n generalizing site r ds with
  | zero => cases hd
  | succ n ih =>
    rw [descRoles_succ] at hd
    cases hr : h.roles[r]? with
    | none => rw [hr] at hd; cases hd
    | some ro =>
      rw [hr] at hd
      simp only at hd
      rw [Out.collectI_sum (G := fun e => f e.2 + 1 * geo (roleKids h) 1 f n e.2) ?_ hd, perm_sum (o.perm _ _ _), geo,
        roleKids_some hr, List.map_map]
      · rfl
      · intro j e _ ys hy
        obtain ⟨ds', h1, rfl⟩ := Out.map_eq_ok.1 hy
        simp only [List.map_cons, List.sum_cons, ih h1, Nat.one_mul]

/-- Descendants that each cost as much as all their descendants together, and something of their own. -/
theorem descRoles_weight {n : Nat} {site : List Val} {r : Nat} {ds : List Nat} (hd : descRoles h o n site r = .ok ds)
    {m : Nat} (hm : n ≤ m) : (ds.map fun d => f d + geo (roleKids h) 2 f m d).sum = geo (roleKids h) 2 f m r := by
  induction n generalizing site r ds m with
  | zero => cases hd
  | succ n ih =>
    obtain ⟨m, rfl⟩ : ∃ m', m = m' + 1 := ⟨m - 1, by omega⟩
    rw [descRoles_succ] at hd
    cases hr : h.roles[r]? with
    | none => rw [hr] at hd; cases hd
    | some ro =>
      rw [hr] at hd
      simp only at hd
      rw [Out.collectI_sum (G := fun e => f e.2 + 2 * geo (roleKids h) 2 f m e.2) ?_ hd, perm_sum (o.perm _ _ _), geo,
        roleKids_some hr, List.map_map]
      · rfl
      · intro j e _ ys hy
        obtain ⟨ds', h1, rfl⟩ := Out.map_eq_ok.1 hy
        simp only [List.map_cons, List.sum_cons, ih h1 (show n ≤ m + 1 by omega)]
        rw [geo_stable h1 (show n ≤ m + 1 by omega), ← geo_stable h1 (show n ≤ m by omega)]
        omega

end RHeap
end Verif
