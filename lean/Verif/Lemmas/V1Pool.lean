import Verif.Model.V1Pool
import Verif.Lemmas.Manager

/-!
# Lemmas about pooled slices
-/

namespace Verif
namespace Arrays
variable {α : Type} {p p' p'' : Arrays α} {zero : α} {grow : Nat → Nat}

/-- The arrays of the local variables. -/
def held (p : Arrays α) : List Nat := p.regs.map (·.arr)

/-- The contents of the local variables. -/
def vals (p : Arrays α) : List (List α) := p.regs.map p.read

/-- Each array is in at most one place and exists; slices fit into their arrays. -/
structure OK (p : Arrays α) : Prop where
  nodup : (p.held ++ p.free).Nodup
  lt : ∀ a ∈ p.held ++ p.free, a < p.arrs.length
  fits : ∀ s ∈ p.regs, s.len ≤ (p.arr s.arr).length

/-- Only arrays in hand and new ones are changed. -/
structure Step (p p' : Arrays α) : Prop where
  size : p.arrs.length ≤ p'.arrs.length
  free : p'.free = p.free
  frame : ∀ a < p.arrs.length, a ∉ p.held → p'.arr a = p.arr a
  held : ∀ a ∈ p'.held, a ∈ p.held ∨ p.arrs.length ≤ a

theorem Step.refl (p : Arrays α) : Step p p := ⟨Nat.le_refl _, rfl, fun _ _ _ => rfl, fun _ h => .inl h⟩

theorem Step.trans (h : Step p p') (g : Step p' p'') : Step p p'' := by
  refine ⟨Nat.le_trans h.size g.size, g.free.trans h.free, fun a ha hn => ?_, fun a ha => ?_⟩
  · rw [g.frame a (by have := h.size; omega) (fun k => by rcases h.held a k with k | k; exacts [hn k, by omega]), h.frame a ha hn]
  · rcases g.held a ha with k | k
    · exact h.held a k
    · right; have := h.size; omega

theorem val_eq (p : Arrays α) {i : Nat} (h : i < p.regs.length) : p.vals[i]? = some (p.val i) := by
  simp [vals, val, h]

theorem val_of_vals {v : List α} {i : Nat} (h : p.vals[i]? = some v) : p.val i = v := by
  have hi : i < p.regs.length := by
    have := (List.getElem?_eq_some_iff.1 h).1; simpa [vals] using this
  rw [val_eq p hi] at h; exact Option.some.inj h

theorem OK.ne {i j : Nat} (h : OK p) (hi : i < p.regs.length) (hj : j < p.regs.length) (hne : i ≠ j) :
    (p.regs[i]).arr ≠ (p.regs[j]).arr := by
  have nd := (List.nodup_append.1 h.nodup).1
  intro e
  have := (List.Nodup.getElem_inj_iff nd (i := i) (j := j) (hi := by simpa [held] using hi) (hj := by simpa [held] using hj)).1
    (by simpa [held] using e)
  exact hne this

theorem push_spec (h : OK p) {i : Nat} (hi : i < p.regs.length) (x : α) :
    OK (p.push zero grow i x) ∧ Step p (p.push zero grow i x) ∧ (p.push zero grow i x).vals = p.vals.set i (p.val i ++ [x]) := by
  have hs : p.regs.getD i ⟨0, 0⟩ = p.regs[i] := by simp [hi]
  have hm : p.regs[i] ∈ p.regs := List.getElem_mem hi
  have hh : p.regs[i].arr ∈ p.held := List.mem_map.2 ⟨_, hm, rfl⟩
  have hlt := h.lt _ (List.mem_append_left _ hh)
  have hf := h.fits _ hm
  have hval : p.val i = (p.arr p.regs[i].arr).take p.regs[i].len := by unfold val; rw [hs]; rfl
  unfold push
  simp only [hs]
  split
  · rename_i hc
    have hheld : (p.regs.set i ⟨p.regs[i].arr, p.regs[i].len + 1⟩).map (·.arr) = p.held := by
      unfold held
      apply List.ext_getElem (by simp)
      intro j h1 h2
      simp only [List.getElem_map, List.getElem_set]
      split <;> simp_all
    have hother : ∀ a, a ≠ p.regs[i].arr →
        (p.arrs.set p.regs[i].arr ((p.arr p.regs[i].arr).set p.regs[i].len x)).getD a [] = p.arr a := by
      intro a ha
      simp [arr, List.getElem?_set_ne (Ne.symm ha)]
    have hself : (p.arrs.set p.regs[i].arr ((p.arr p.regs[i].arr).set p.regs[i].len x)).getD p.regs[i].arr [] =
        (p.arr p.regs[i].arr).set p.regs[i].len x := by simp [hlt]
    refine ⟨⟨?_, ?_, ?_⟩, ⟨by simp, rfl, fun a _ hn => hother a (fun e => hn (e ▸ hh)), fun a ha => .inl (by
      unfold held at ha; simp only at ha; rw [hheld] at ha; exact ha)⟩, ?_⟩
    · show ((p.regs.set i _).map (·.arr) ++ p.free).Nodup
      rw [hheld]; exact h.nodup
    · intro a ha
      have ha : a ∈ (p.regs.set i ⟨p.regs[i].arr, p.regs[i].len + 1⟩).map (·.arr) ++ p.free := ha
      rw [hheld] at ha
      simpa using h.lt a ha
    · intro s hsm
      obtain ⟨j, hj, rfl⟩ := List.getElem_of_mem hsm
      simp only [List.length_set] at hj
      show _ ≤ ((p.arrs.set p.regs[i].arr ((p.arr p.regs[i].arr).set p.regs[i].len x)).getD _ []).length
      simp only [List.getElem_set]
      split
      · rw [hself]; simp; omega
      · rename_i hne
        rw [hother _ (fun e => h.ne hi hj hne e.symm)]
        exact h.fits _ (List.getElem_mem hj)
    · apply List.ext_getElem? 
      intro j
      simp only [vals, List.getElem?_map, List.getElem?_set, List.length_map]
      by_cases hj : i = j
      · subst hj
        simp only [if_true, hi, Option.map_some, Option.some.injEq]
        show List.take _ ((p.arrs.set p.regs[i].arr ((p.arr p.regs[i].arr).set p.regs[i].len x)).getD p.regs[i].arr []) = _
        rw [hself, hval]
        rw [List.take_set, List.take_add_one, List.set_append_right _ _ (by rw [List.length_take]; exact Nat.min_le_left _ _)]
        have : (p.arr p.regs[i].arr)[p.regs[i].len]? = some (p.arr p.regs[i].arr)[p.regs[i].len] := by simp [hc]
        rw [this]
        simp [Nat.min_eq_left hf]
      · simp only [if_neg hj]
        cases hj2 : p.regs[j]? with
        | none => rfl
        | some s =>
          obtain ⟨hj3, rfl⟩ := List.getElem?_eq_some_iff.1 hj2
          show some (List.take _ ((p.arrs.set p.regs[i].arr ((p.arr p.regs[i].arr).set p.regs[i].len x)).getD _ [])) = _
          rw [hother _ (fun e => h.ne hi hj3 hj e.symm)]
          rfl
  · rename_i hc
    have hlen : p.regs[i].len = (p.arr p.regs[i].arr).length := by omega
    have hold : ∀ L : List α, ∀ a < p.arrs.length, (p.arrs ++ [L]).getD a [] = p.arr a := by
      intro L a ha
      simp [arr, List.getElem?_append_left ha]
    have hnew : ∀ L : List α, (p.arrs ++ [L]).getD p.arrs.length [] = L := by intro L; simp
    have hmem : ∀ a ∈ (p.regs.set i ⟨p.arrs.length, p.regs[i].len + 1⟩).map (·.arr), a ∈ p.held ∨ a = p.arrs.length := by
      intro a ha
      obtain ⟨s, hs1, rfl⟩ := List.mem_map.1 ha
      rcases List.mem_or_eq_of_mem_set hs1 with k | rfl
      · exact .inl (List.mem_map.2 ⟨s, k, rfl⟩)
      · exact .inr rfl
    refine ⟨⟨?_, ?_, ?_⟩, ⟨by simp, rfl, fun a ha _ => hold _ a ha, fun a ha => ?_⟩, ?_⟩
    · show ((p.regs.set i _).map (·.arr) ++ p.free).Nodup
      have nd := List.nodup_append.1 h.nodup
      rw [List.nodup_append]
      refine ⟨?_, nd.2.1, ?_⟩
      · rw [List.map_set]
        refine List.Nodup.set ?_ ?_ 
        · exact nd.1
        · intro k
          have := h.lt _ (List.mem_append_left _ k)
          simp at this
      · intro a ha b hb e
        rcases hmem a ha with k | k
        · exact nd.2.2 a k b hb e
        · have := h.lt b (List.mem_append_right _ hb); omega
    · intro a ha
      rcases List.mem_append.1 ha with ha | ha
      · rcases hmem a ha with k | k
        · have := h.lt a (List.mem_append_left _ k); simp; omega
        · simp [k]
      · have := h.lt a (List.mem_append_right _ ha); simp; omega
    · intro s hsm
      rcases List.mem_or_eq_of_mem_set hsm with k | rfl
      · have := h.lt s.arr (List.mem_append_left _ (List.mem_map.2 ⟨s, k, rfl⟩))
        simp only [arr]
        rw [hold _ _ this]
        exact h.fits s k
      · simp only [arr]
        rw [hnew]
        simp [read]; omega
    · rcases hmem a ha with k | k
      · exact .inl k
      · right; omega
    · apply List.ext_getElem?
      intro j
      simp only [vals, List.getElem?_map, List.getElem?_set, List.length_map]
      by_cases hj : i = j
      · subst hj
        simp only [if_true, hi, Option.map_some, Option.some.injEq]
        show List.take _ ((p.arrs ++ [_]).getD p.arrs.length []) = _
        rw [hnew, hval]
        have : (p.read p.regs[i]).length = p.regs[i].len := by simp [read, hlen]
        rw [List.take_append, List.take_of_length_le (by rw [this]; exact Nat.le_succ _), this]
        simp [read]
      · simp only [if_neg hj]
        cases hj2 : p.regs[j]? with
        | none => rfl
        | some s =>
          obtain ⟨hj3, rfl⟩ := List.getElem?_eq_some_iff.1 hj2
          have := h.lt _ (List.mem_append_left _ (List.mem_map.2 ⟨_, List.getElem_mem hj3, rfl⟩))
          simp only [Option.map_some, read, arr]
          rw [hold _ _ this]
          rfl

theorem vals_length (p : Arrays α) : p.vals.length = p.regs.length := by simp [vals]

theorem pushAll_spec {i : Nat} (xs : List α) (h : OK p) (hi : i < p.regs.length) :
    OK (p.pushAll zero grow i xs) ∧ Step p (p.pushAll zero grow i xs) ∧ (p.pushAll zero grow i xs).vals = p.vals.set i (p.val i ++ xs) := by
  induction xs generalizing p with
  | nil =>
    refine ⟨h, .refl _, ?_⟩
    apply List.ext_getElem?
    intro j
    rw [List.getElem?_set, vals_length]
    split
    · rename_i e; subst e; simp [val_eq p hi, pushAll]
    · rfl
  | cons x xs ih =>
    obtain ⟨h1, h2, h3⟩ := push_spec (zero := zero) (grow := grow) h hi x
    have hl : i < (p.push zero grow i x).regs.length := by rw [← vals_length, h3]; simpa [vals_length] using hi
    obtain ⟨g1, g2, g3⟩ := ih h1 hl
    have hv : (p.push zero grow i x).val i = p.val i ++ [x] := val_of_vals (by rw [h3]; simp [vals_length, hi])
    refine ⟨g1, h2.trans g2, ?_⟩
    show ((p.push zero grow i x).pushAll zero grow i xs).vals = _
    rw [g3, h3, hv]; simp

/-- What `Get` hands out: a pooled array, or a new one. -/
theorem get_spec (h : OK p) (c : Option Nat) :
    OK (p.get zero c) ∧ (p.get zero c).vals = p.vals ++ [[]] ∧ p.arrs.length ≤ (p.get zero c).arrs.length ∧
    (∀ a < p.arrs.length, (p.get zero c).arr a = p.arr a) ∧
    ∃ b, (p.get zero c).held = p.held ++ [b] ∧ ((b ∈ p.free ∧ c = some b) ∨ p.arrs.length ≤ b) := by
  unfold get
  split
  · rename_i m hm
    have hmc : some m = c := by simpa using List.find?_some hm
    have hmf : m ∈ p.free := List.mem_of_find?_eq_some hm
    have nd := List.nodup_append.1 h.nodup
    refine ⟨⟨?_, ?_, ?_⟩, ?_, Nat.le_refl _, fun _ _ => rfl, m, by simp [held], .inl ⟨hmf, hmc.symm⟩⟩
    · show ((p.regs ++ [(⟨m, 0⟩ : Slice)]).map (·.arr) ++ p.free.erase m).Nodup
      have e : (p.regs ++ [(⟨m, 0⟩ : Slice)]).map (·.arr) = p.held ++ [m] := by simp [held]
      rw [e, List.append_assoc, List.nodup_append]
      refine ⟨nd.1, ?_, ?_⟩
      · simp only [List.singleton_append, List.nodup_cons]
        exact ⟨fun k => (List.Nodup.mem_erase_iff nd.2.1).1 k |>.1 rfl, nd.2.1.erase _⟩
      · intro a ha b hb
        simp only [List.singleton_append, List.mem_cons] at hb
        rcases hb with rfl | hb
        · exact nd.2.2 a ha _ hmf
        · exact nd.2.2 a ha b (List.mem_of_mem_erase hb)
    · intro a ha
      have : a ∈ p.held ++ p.free := by
        simp only [held, List.map_append, List.map_cons, List.map_nil, List.append_assoc, List.mem_append,
          List.singleton_append, List.mem_cons] at ha ⊢
        rcases ha with k | rfl | k
        · exact .inl k
        · exact .inr hmf
        · exact .inr (List.mem_of_mem_erase k)
      exact h.lt a this
    · intro s hs
      rcases List.mem_append.1 hs with k | k
      · exact h.fits s k
      · rw [List.mem_singleton.1 k]; exact Nat.zero_le _
    · simp only [vals, List.map_append, List.map_cons, List.map_nil]
      congr 1
  · have hold : ∀ L : List α, ∀ a < p.arrs.length, (p.arrs ++ [L]).getD a [] = p.arr a := by
      intro L a ha
      simp [arr, List.getElem?_append_left ha]
    have nd := List.nodup_append.1 h.nodup
    refine ⟨⟨?_, ?_, ?_⟩, ?_, by simp, fun a ha => hold _ a ha, p.arrs.length, by simp [held], .inr (Nat.le_refl _)⟩
    · show ((p.regs ++ [(⟨p.arrs.length, 0⟩ : Slice)]).map (·.arr) ++ p.free).Nodup
      have e : (p.regs ++ [(⟨p.arrs.length, 0⟩ : Slice)]).map (·.arr) = p.held ++ [p.arrs.length] := by simp [held]
      rw [e, List.append_assoc, List.nodup_append]
      refine ⟨nd.1, ?_, ?_⟩
      · simp only [List.singleton_append, List.nodup_cons]
        refine ⟨fun k => ?_, nd.2.1⟩
        have := h.lt _ (List.mem_append_right _ k); omega
      · intro a ha b hb
        simp only [List.singleton_append, List.mem_cons] at hb
        rcases hb with rfl | hb
        · have := h.lt _ (List.mem_append_left _ ha); omega
        · exact nd.2.2 a ha b hb
    · intro a ha
      simp only [held, List.map_append, List.map_cons, List.map_nil, List.append_assoc, List.mem_append,
          List.singleton_append, List.mem_cons] at ha
      simp only [List.length_append, List.length_singleton]
      rcases ha with k | rfl | k
      · have := h.lt a (List.mem_append_left _ k); omega
      · omega
      · have := h.lt a (List.mem_append_right _ k); omega
    · intro s hs
      rcases List.mem_append.1 hs with k | k
      · have hl := h.lt s.arr (List.mem_append_left _ (List.mem_map.2 ⟨s, k, rfl⟩))
        show s.len ≤ ((p.arrs ++ [_]).getD s.arr []).length
        rw [hold _ _ hl]
        exact h.fits s k
      · rw [List.mem_singleton.1 k]; exact Nat.zero_le _
    · simp only [vals, List.map_append, List.map_cons, List.map_nil]
      congr 1
      apply List.map_congr_left
      intro s k
      have hl := h.lt s.arr (List.mem_append_left _ (List.mem_map.2 ⟨s, k, rfl⟩))
      show List.take _ ((p.arrs ++ [_]).getD s.arr []) = _
      rw [hold _ _ hl]; rfl

theorem compact_spec (h : OK p) {i : Nat} (hi : i < p.regs.length) {f : List α → List α} (hf : ∀ l, (f l).length ≤ l.length) :
    OK (p.compactAt zero i f).2 ∧ Step p (p.compactAt zero i f).2 ∧ (p.compactAt zero i f).2.regs = p.regs ∧
    (p.compactAt zero i f).1.arr ∈ p.held ∧
    (p.compactAt zero i f).2.read (p.compactAt zero i f).1 = f (p.val i) := by
  have hs : p.regs.getD i ⟨0, 0⟩ = p.regs[i] := by simp [hi]
  have hm : p.regs[i] ∈ p.regs := List.getElem_mem hi
  have hh : p.regs[i].arr ∈ p.held := List.mem_map.2 ⟨_, hm, rfl⟩
  have hlt := h.lt _ (List.mem_append_left _ hh)
  have hfit := h.fits _ hm
  have hval : p.val i = p.read p.regs[i] := by unfold val; rw [hs]
  have hrl : (p.read p.regs[i]).length = p.regs[i].len := by simp [read]; omega
  have hfl := hf (p.read p.regs[i])
  unfold compactAt
  rw [hs]
  have hother : ∀ L : List α, ∀ a, a ≠ p.regs[i].arr → (p.arrs.set p.regs[i].arr L).getD a [] = p.arr a := by
    intro L a ha
    simp [arr, List.getElem?_set_ne (Ne.symm ha)]
  have hself : ∀ L : List α, (p.arrs.set p.regs[i].arr L).getD p.regs[i].arr [] = L := by intro L; simp [hlt]
  refine ⟨⟨h.nodup, fun a ha => by simpa using h.lt a ha, ?_⟩, ⟨by simp, rfl, fun a _ hn => hother _ a (fun e => hn (e ▸ hh)),
    fun a ha => .inl ha⟩, rfl, hh, ?_⟩
  · intro s k
    by_cases e : s.arr = p.regs[i].arr
    · show s.len ≤ ((p.arrs.set p.regs[i].arr _).getD s.arr []).length
      rw [e, hself]
      have := h.fits s k
      rw [e] at this
      simp; omega
    · show s.len ≤ ((p.arrs.set p.regs[i].arr _).getD s.arr []).length
      rw [hother _ _ e]; exact h.fits s k
  · show List.take _ ((p.arrs.set p.regs[i].arr _).getD p.regs[i].arr []) = _
    rw [hself, hval, List.append_assoc, List.take_append]
    simp

theorem putAll_spec (h : OK p) : OK p.putAll ∧ p.putAll.regs = [] ∧ p.putAll.arrs = p.arrs ∧
    ∀ a, a ∈ p.putAll.free ↔ a ∈ p.held ∨ a ∈ p.free := by
  have hp : ((p.regs.map (·.arr)).reverse ++ p.free).Perm (p.held ++ p.free) := (List.reverse_perm _).append_right _
  refine ⟨⟨?_, ?_, by simp [putAll]⟩, rfl, rfl, fun a => by simp [putAll, held]⟩
  · show ([] ++ ((p.regs.map (fun s : Slice => s.arr)).reverse ++ p.free)).Nodup
    rw [List.nil_append]
    exact hp.nodup_iff.2 h.nodup
  · intro a ha
    have ha : a ∈ [] ++ ((p.regs.map (fun s : Slice => s.arr)).reverse ++ p.free) := ha
    rw [List.nil_append] at ha
    exact h.lt a (hp.mem_iff.1 ha)

end Arrays
end Verif
