import Verif.Model.MatchCost
import Verif.Props.Match

/-!
# How much `utils.MatchResource` reads (C129)
-/

namespace Verif
open Spec
variable {value pattern : Str}

theorem skipReads_le {s : Str} {i : Nat} : skipReads s i ≤ skipTo s i - i + 1 := by
  unfold skipReads; split <;> omega

/-- At a '*' whose next byte is still to come in the value the loop stands still. -/
theorem mrun_stuck {nc : UInt8} {p : Nat} (h1 : pattern[p]? = some STAR) (h2 : pattern[p + 1]? = some nc) (h3 : nc ≠ STAR) (n : Nat) :
    ∀ v, v ≤ value.length → nc ∈ value.drop v → mrun value pattern n v p = none := by
  induction n with
  | zero => intros; rfl
  | succ n ih =>
    intro w hw hmem
    simp only [mrun, mstep, h1, h2, if_pos, if_neg h3]
    rw [if_neg (by omega)]
    cases hi : indexByte nc (value.drop w) with
    | none => exact absurd hmem (indexByte_none.1 hi)
    | some k =>
      have hk := indexByte_some hi
      rw [List.length_drop, List.drop_drop] at hk
      exact ih (w + k) (by omega) hk.2

theorem mtotal_le {n v p : Nat} {r : Out Bool} (hv : v ≤ value.length) (hp : p ≤ pattern.length) (h : mrun value pattern n v p = some r) :
    mtotal value pattern n v p ≤ 5 * (pattern.length - p) + 2 * (value.length - v) := by
  induction n generalizing v p with
  | zero => cases h
  | succ n ih =>
    rw [mrun] at h
    rw [mtotal]
    unfold mreads
    cases h1 : pattern[p]? with
    | none => simp [mstep, h1]
    | some c =>
      obtain ⟨hlt, _⟩ := List.getElem?_eq_some_iff.1 h1
      dsimp only
      by_cases hs : c = STAR
      · subst hs
        rw [if_pos rfl]
        cases h2 : pattern[p + 1]? with
        | none => simp only [mstep, h1, h2, if_pos]; omega
        | some nc =>
          obtain ⟨hlt1, _⟩ := List.getElem?_eq_some_iff.1 h2
          dsimp only
          by_cases hs1 : nc = STAR
          · simp only [mstep, h1, h2, if_pos, hs1] at h ⊢
            have := ih hv (by omega) h
            omega
          · rw [if_neg hs1]
            cases hi : indexByte nc (value.drop v) with
            | none =>
              simp only [mstep, h1, h2, if_pos, if_neg hs1, if_neg (Nat.not_lt.2 hv), hi, indexReads, List.length_drop]
              omega
            | some k =>
              have hm : nc ∈ value.drop v := Classical.byContradiction fun hx => by rw [indexByte_none.2 hx] at hi; cases hi
              have := mrun_stuck h1 h2 hs1 (n + 1) v hv hm
              rw [mrun, h] at this; cases this
      · rw [if_neg hs]
        cases hv0 : value[v]? with
        | none => simp only [mstep, h1, if_neg hs, hv0]; omega
        | some d =>
          obtain ⟨hltv, _⟩ := List.getElem?_eq_some_iff.1 hv0
          dsimp only
          have a := skipTo_spec value (v + 1)
          have b := skipTo_spec pattern (p + 1)
          have a2 := a.2.1 (by omega)
          have b2 := b.2.1 (by omega)
          have a3 := a.2.2
          have b3 := b.2.2
          have sv := skipReads_le (s := value) (i := v + 1)
          have sp := skipReads_le (s := pattern) (i := p + 1)
          by_cases hcol : c = COLON
          · have hc : c = d ∨ c = COLON := .inr hcol
            simp only [mstep, h1, if_neg hs, hv0, if_pos hc, if_pos hcol] at h ⊢
            have := ih a2 b2 h
            split <;> omega
          · by_cases hcd : c = d
            · have hc : c = d ∨ c = COLON := .inl hcd
              simp only [mstep, h1, if_neg hs, hv0, if_pos hc, if_neg hcol] at h ⊢
              have := ih (by omega) (by omega) h
              rw [if_pos hcd]; omega
            · have hc : ¬ (c = d ∨ c = COLON) := fun h => h.elim hcd hcol
              simp only [mstep, h1, if_neg hs, hv0, if_neg hc, if_neg hcd, if_neg hcol]
              omega

/-- C129. A call that returns, with either answer, has read five bytes for every byte of the pattern and two for every
byte of the value at most: nothing is tried twice. -/
theorem C129_reads (n : Nat) {r : Out Bool} (h : mrun value pattern n 0 0 = some r) :
    mtotal value pattern n 0 0 ≤ 5 * pattern.length + 2 * value.length := mtotal_le (by omega) (by omega) h

/-- C129. It goes round at most once more than the pattern is long. -/
theorem C129_rounds (n : Nat) {r : Out Bool} (h : mrun value pattern n 0 0 = some r) :
    mrun value pattern (pattern.length + 1) 0 0 = some r := by
  have key : ∀ m, mrun value pattern (n + m) 0 0 = some r := fun m => by
    have mono : ∀ n v p r, mrun value pattern n v p = some r → mrun value pattern (n + 1) v p = some r := by
      intro n
      induction n with
      | zero => intro v p r h; cases h
      | succ n ih =>
        intro v p r h
        rw [mrun] at h ⊢
        cases hs : mstep value pattern v p with
        | ret _ => simpa [hs] using h
        | cont v' p' => rw [hs] at h; exact ih _ _ _ h
    induction m with
    | zero => exact h
    | succ m ih => exact mono _ _ _ _ ih
  have h1 := key (pattern.length + 1)
  have e1 := mrun_eq value pattern (n + (pattern.length + 1)) 0 0 (by omega) (by omega) (by omega)
  have e2 := mrun_eq value pattern (pattern.length + 1) 0 0 (by omega) (by omega) (by omega)
  rw [e2, ← e1, h1]

/-- C129. So a call that returns an answer has read that much when it does. -/
theorem C129_returns {b : Bool} (h : matchResource value pattern = .ok b) :
    mrun value pattern (pattern.length + 1) 0 0 = some (.ok b) ∧
      mtotal value pattern (pattern.length + 1) 0 0 ≤ 5 * pattern.length + 2 * value.length := by
  obtain ⟨n, hn⟩ := (matchResource_run value pattern _ (by simp)).1 h
  exact ⟨C129_rounds n hn, C129_reads _ (C129_rounds n hn)⟩

/-- C129. A call that does not return reads without end. -/
theorem C129_hangs (h : Hangs pattern value) (n : Nat) : n ≤ mtotal value pattern n 0 0 := by
  have hn := (matchResource_diverge_run value pattern).1 ((C03_diverges_iff_partial value pattern).2 h) n
  have key : ∀ n v p, mrun value pattern n v p = none → n ≤ mtotal value pattern n v p := by
    intro n
    induction n with
    | zero => intros; omega
    | succ n ih =>
      intro v p h
      rw [mrun] at h
      rw [mtotal]
      cases hs : mstep value pattern v p with
      | ret r => rw [hs] at h; cases h
      | cont v' p' =>
        rw [hs] at h
        have h1 := ih v' p' h
        have h2 : 1 ≤ mreads value pattern v p := by
          unfold mreads
          unfold mstep at hs
          cases hp : pattern[p]? with
          | none => rw [hp] at hs; cases hs
          | some c => dsimp only; repeat' split
                      all_goals omega
        dsimp only
        omega
  exact key n 0 0 hn

/-- C129. 38 bytes for a pattern of ten and a value of eleven bytes; the bound is 72. -/
example : matchResource (str "/users/9001") (str "/users/:id") = .ok true ∧
    mtotal (str "/users/9001") (str "/users/:id") 11 0 0 = 38 := by decide +kernel

/-- C129. The pattern "*b" reads without end on "ab". -/
example : Hangs (str "*b") (str "ab") := (C03_diverges_iff_partial _ _).1 (by decide +kernel)

end Verif
