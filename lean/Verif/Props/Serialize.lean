import Verif.Model.Serialize
import Mathlib.Data.List.Nodup

/-!
# C80: `utils.Serialize` on maps (utils/str.go:164-176)
-/

namespace Verif

/-- The property: a map has one text, whatever the iteration order and the sort do. -/
def C80_full : Prop := ∀ m s s' : List SerEntry, (m.map (·.key)).Nodup → SortResult m s → SortResult m s' →
  serializeMap s = serializeMap s'

theorem strLt_antisymm : ∀ {a b : Str}, strLt a b = false → strLt b a = false → a = b
  | [], [], _, _ => rfl
  | [], _ :: _, h, _ => by simp [strLt] at h
  | _ :: _, [], _, h => by simp [strLt] at h
  | x :: a, y :: b, h1, h2 => by
    rw [strLt] at h1 h2
    by_cases hxy : x < y
    · simp [hxy] at h1
    · by_cases hyx : y < x
      · simp [hyx] at h2
      · simp only [hxy, hyx, if_false] at h1 h2
        have e : x = y := UInt8.le_antisymm (UInt8.not_lt.1 hyx) (UInt8.not_lt.1 hxy)
        rw [e, strLt_antisymm h1 h2]

theorem strLt_spec : ∀ (a b : Str), strLt a b = true ↔
    (∃ c, c ≠ [] ∧ b = a ++ c) ∨ ∃ p x y a' b', a = p ++ x :: a' ∧ b = p ++ y :: b' ∧ x < y
  | a, [] => by simp [strLt]
  | [], y :: b => by simp [strLt]
  | x :: a, y :: b => by
    rw [strLt]
    by_cases hxy : x < y
    · simp only [hxy, if_true, true_iff]
      exact Or.inr ⟨[], x, y, a, b, rfl, rfl, hxy⟩
    · by_cases hyx : y < x
      · simp only [hxy, hyx, if_false, if_true, Bool.false_eq_true, false_iff]
        rintro (⟨c, -, h⟩ | ⟨p, u, v, a', b', h1, h2, h3⟩)
        · rw [(List.cons.inj h).1] at hyx; exact absurd hyx (UInt8.lt_irrefl x)
        · cases p with
          | nil =>
            rw [(List.cons.inj h1).1, (List.cons.inj h2).1] at hxy; exact hxy h3
          | cons q p =>
            have e1 := (List.cons.inj h1).1
            have e2 := (List.cons.inj h2).1
            rw [e1, e2] at hyx; exact absurd hyx (UInt8.lt_irrefl q)
      · have e : x = y := UInt8.le_antisymm (UInt8.not_lt.1 hyx) (UInt8.not_lt.1 hxy)
        subst e
        simp only [hxy, if_false]
        rw [strLt_spec a b]
        constructor
        · rintro (⟨c, hc, rfl⟩ | ⟨p, u, v, a', b', rfl, rfl, h3⟩)
          · exact Or.inl ⟨c, hc, rfl⟩
          · exact Or.inr ⟨x :: p, u, v, a', b', rfl, rfl, h3⟩
        · rintro (⟨c, hc, h⟩ | ⟨p, u, v, a', b', h1, h2, h3⟩)
          · exact Or.inl ⟨c, hc, (List.cons.inj h).2⟩
          · cases p with
            | nil =>
              rw [← (List.cons.inj h1).1, ← (List.cons.inj h2).1] at h3; exact absurd h3 hxy
            | cons q p => exact Or.inr ⟨p, u, v, a', b', (List.cons.inj h1).2, (List.cons.inj h2).2, h3⟩

/-- C80. If no two keys have the same sort text, as for string keys, every sort gives the same list and so the same text.
Missing from `C80_full`: keys of other kinds. -/
theorem C80_unique_partial {m s s' : List SerEntry} (hm : (m.map (·.sort)).Nodup) (h : SortResult m s)
    (h' : SortResult m s') : s = s' ∧ serializeMap s = serializeMap s' := by
  have e : s = s' := by
    refine List.Perm.eq_of_pairwise ?_ h.2 h'.2 (h.1.trans h'.1.symm)
    intro a b ha hb h1 h2
    have es := strLt_antisymm h2 h1
    exact List.inj_on_of_nodup_map hm (h.1.mem_iff.1 ha) (h'.1.mem_iff.1 hb) es
  exact ⟨e, by rw [e]⟩

/-- C80. A map with string keys: the text is the entries in increasing bytewise order of the keys, each as `key:value|`. -/
theorem C80_string_keys {m s : List SerEntry} (hk : ∀ e ∈ m, e.sort = e.key) (hm : (m.map (·.key)).Nodup)
    (h : SortResult m s) :
    serializeMap s = s.flatMap (fun e => e.key ++ str ":" ++ e.value ++ str "|") ∧ s.Perm m ∧
    s.Pairwise (fun x y => strLt x.key y.key = true) := by
  refine ⟨?_, h.1, ?_⟩
  · have e : ∀ (l : List SerEntry) (acc : Str), l.foldl (fun acc e => acc ++ serField e.key e.value) acc =
        acc ++ l.flatMap (fun e => e.key ++ str ":" ++ e.value ++ str "|") := by
      intro l
      induction l with
      | nil => simp
      | cons x l ih =>
        intro acc
        rw [List.foldl_cons, ih, List.flatMap_cons, serField, show str ":" = [58] from by decide +kernel,
          show str "|" = [124] from by decide +kernel]
        simp
    exact e s []
  · have hs : (s.map (·.key)).Nodup := (h.1.map _).nodup_iff.2 hm
    have h2 : s.Pairwise (fun x y => x.key ≠ y.key) := by rw [List.Nodup, List.pairwise_map] at hs; exact hs
    refine (h.2.and h2).imp_of_mem ?_
    intro x y hx hy ⟨h3, h4⟩
    rw [hk x (h.1.mem_iff.1 hx), hk y (h.1.mem_iff.1 hy)] at h3
    cases h5 : strLt x.key y.key with
    | true => rfl
    | false => exact absurd (strLt_antisymm h5 h3) h4

/-- C80. A sort result exists for every map, so the statements above are not about nothing. -/
theorem C80_exists (m : List SerEntry) : ∃ s, SortResult m s := by
  have total : ∀ a b : Str, strLt a b = false ∨ strLt b a = false := by
    intro a
    induction a with
    | nil => intro b; right; cases b <;> rfl
    | cons x a ih =>
      intro b
      cases b with
      | nil => left; rfl
      | cons y b =>
        simp only [strLt]
        by_cases hxy : x < y
        · right; simp [hxy, UInt8.lt_asymm hxy]
        · by_cases hyx : y < x
          · left; simp [hxy, hyx]
          · simpa [hxy, hyx] using ih b
  have trans : ∀ a b c : Str, strLt b a = false → strLt c b = false → strLt c a = false := by
    intro a
    induction a with
    | nil => intro b c _ _; cases c <;> rfl
    | cons x a ih =>
      intro b c h1 h2
      cases b with
      | nil => simp [strLt] at h1
      | cons y b =>
        cases c with
        | nil => simp [strLt] at h2
        | cons z c =>
          simp only [strLt] at h1 h2 ⊢
          have n1 : ¬ y < x := by intro h; simp [h] at h1
          have n2 : ¬ z < y := by intro h; simp [h] at h2
          simp only [n1, n2, if_false] at h1 h2
          have l1 : x ≤ y := UInt8.not_lt.1 n1
          have l2 : y ≤ z := UInt8.not_lt.1 n2
          have n3 : ¬ z < x := UInt8.not_lt.2 (UInt8.le_trans l1 l2)
          simp only [n3, if_false]
          by_cases hxz : x < z
          · simp [hxz]
          · have e : x = z := UInt8.le_antisymm (UInt8.le_trans l1 l2) (UInt8.not_lt.1 hxz)
            subst e
            have e2 : x = y := UInt8.le_antisymm l1 l2
            subst e2
            simp only [UInt8.lt_irrefl, if_false] at h1 h2 ⊢
            exact ih b c h1 h2
  refine ⟨m.mergeSort (fun x y => !strLt y.sort x.sort), List.mergeSort_perm _ _, ?_⟩
  have := List.pairwise_mergeSort (le := fun x y : SerEntry => !strLt y.sort x.sort)
    (fun a b c h1 h2 => by
      simp only [Bool.not_eq_true'] at *
      exact trans _ _ _ h1 h2)
    (fun a b => by
      rcases total a.sort b.sort with h | h
      · simp [h]
      · simp [h]) m
  exact this.imp fun h => by simpa using h

/-- C80. Integer keys: both orders of two entries are sort results, with different texts. -/
theorem C80_counterexample :
    let a : SerEntry := ⟨str "<int Value>", str "1", str "x"⟩
    let b : SerEntry := ⟨str "<int Value>", str "2", str "y"⟩
    SortResult [a, b] [a, b] ∧ SortResult [a, b] [b, a] ∧ serializeMap [a, b] ≠ serializeMap [b, a] := by
  intro a b
  refine ⟨⟨.refl _, ?_⟩, ⟨.swap _ _ _, ?_⟩, ?_⟩ <;> decide +kernel

theorem C80_full_false : ¬ C80_full := fun h =>
  C80_counterexample.2.2 (h _ _ _ (by decide +kernel) C80_counterexample.1 C80_counterexample.2.1)

/-- String keys `b` and `a`: sorted. -/
example : ∃ s, SortResult [⟨str "b", str "b", str "2"⟩, ⟨str "a", str "a", str "1"⟩] s ∧
    serializeMap s = str "a:1|b:2|" := by
  refine ⟨[⟨str "a", str "a", str "1"⟩, ⟨str "b", str "b", str "2"⟩], ⟨.swap _ _ _, ?_⟩, ?_⟩ <;> decide +kernel

end Verif
