import Verif.Model.Match
import Verif.Spec.Match

namespace Verif
open Spec

/-- Structural form of the matcher (proof device). -/
def matchL (ps vs : Str) : Out Bool :=
  match ps with
  | [] => .ok (decide (vs = []))
  | c :: ps =>
    if c = STAR then
      match ps.dropWhile (· = STAR) with
      | [] => .ok true
      | nc :: _ => if nc ∈ vs then .diverge else .ok false
    else match vs with
      | [] => .ok false
      | d :: vs =>
        if c = COLON then matchL (ps.dropWhile (· ≠ SLASH)) (vs.dropWhile (· ≠ SLASH))
        else if c = d then matchL ps vs
        else .ok false
  termination_by ps.length
  decreasing_by
    · have : (ps.dropWhile (· ≠ SLASH)).length ≤ ps.length :=
        (List.dropWhile_sublist _).length_le
      simp only [List.length_cons]; omega
    · simp

theorem indexByte_none {c : UInt8} {s : Str} : indexByte c s = none ↔ c ∉ s := by
  induction s with
  | nil => simp [indexByte]
  | cons d t ih =>
    simp only [indexByte]
    split
    · rename_i h; subst h; simp
    · rename_i h
      simp only [Option.map_eq_none_iff, ih, List.mem_cons, not_or]
      exact ⟨fun x => ⟨fun e => h e.symm, x⟩, fun x => x.2⟩

theorem indexByte_some {c : UInt8} {s : Str} {k : Nat} (h : indexByte c s = some k) :
    k < s.length ∧ c ∈ s.drop k := by
  induction s generalizing k with
  | nil => simp [indexByte] at h
  | cons d t ih =>
    simp only [indexByte] at h
    split at h
    · rename_i h2; subst h2; simp at h; subst h; simp
    · simp only [Option.map_eq_some_iff] at h
      obtain ⟨j, hj, rfl⟩ := h
      have := ih hj
      simp [this]

theorem skipLoop_spec (s : Str) (n i : Nat) (hn : s.length ≤ i + n) :
    s.drop (skipLoop s n i) = (s.drop i).dropWhile (· ≠ SLASH) ∧
      (i ≤ s.length → skipLoop s n i ≤ s.length) ∧ i ≤ skipLoop s n i := by
  induction n generalizing i with
  | zero =>
    have h0 : s.drop i = [] := List.drop_eq_nil_of_le (by omega)
    simp only [skipLoop]; rw [h0]; simp
  | succ n ih =>
    simp only [skipLoop]
    cases h : s[i]? with
    | none =>
      have h0 : s.drop i = [] := List.drop_eq_nil_of_le (by simpa using h)
      simp only; rw [h0]; simp
    | some c =>
      obtain ⟨hlt, rfl⟩ := List.getElem?_eq_some_iff.1 h
      have hd : s.drop i = s[i] :: s.drop (i + 1) := List.drop_eq_getElem_cons hlt
      simp only
      by_cases hc : s[i] = SLASH
      · rw [if_pos hc]
        refine ⟨?_, fun h => h, Nat.le_refl _⟩
        rw [hd, List.dropWhile_cons_of_neg (by simp [hc])]
      · rw [if_neg hc]
        obtain ⟨h1, h2, h3⟩ := ih (i + 1) (by omega)
        refine ⟨?_, fun _ => h2 (by omega), by omega⟩
        rw [h1, hd, List.dropWhile_cons_of_pos (by simp [hc])]

theorem skipTo_spec (s : Str) (i : Nat) :
    s.drop (skipTo s i) = (s.drop i).dropWhile (· ≠ SLASH) ∧
      (i ≤ s.length → skipTo s i ≤ s.length) ∧ i ≤ skipTo s i :=
  skipLoop_spec s s.length i (by omega)

theorem matchL_cons (c : UInt8) (ps vs : Str) : matchL (c :: ps) vs =
    if c = STAR then
      match ps.dropWhile (· = STAR) with
      | [] => .ok true
      | nc :: _ => if nc ∈ vs then .diverge else .ok false
    else match vs with
      | [] => .ok false
      | d :: vs =>
        if c = COLON then matchL (ps.dropWhile (· ≠ SLASH)) (vs.dropWhile (· ≠ SLASH))
        else if c = d then matchL ps vs
        else .ok false := by
  conv => lhs; unfold matchL

theorem matchL_nil (vs : Str) : matchL [] vs = .ok (decide (vs = [])) := by
  unfold matchL; rfl

theorem matchL_star_star (ps vs : Str) : matchL (STAR :: STAR :: ps) vs = matchL (STAR :: ps) vs := by
  rw [matchL_cons, matchL_cons]; simp

/-- The result as the machine reports it. -/
def asRun : Out Bool → Option (Out Bool)
  | .diverge => none
  | r => some r

/-- The machine at `(v, p)` computes `matchL` on the remaining strings. -/
theorem mrun_eq (value pattern : Str) (n v p : Nat) (hv : v ≤ value.length)
    (hn : pattern.length - p < n) (hp : p ≤ pattern.length) :
    mrun value pattern n v p = asRun (matchL (pattern.drop p) (value.drop v)) := by
  induction n generalizing v p with
  | zero => omega
  | succ n ih =>
    simp only [mrun, mstep]
    cases h : pattern[p]? with
    | none =>
      have hle : pattern.length ≤ p := by simpa using h
      have h0 : pattern.drop p = [] := List.drop_eq_nil_of_le hle
      have hpe : p = pattern.length := by omega
      rw [h0, matchL_nil]
      simp only [asRun, Option.some.injEq, Out.ok.injEq]
      have : (value.drop v = []) ↔ v = value.length := by rw [List.drop_eq_nil_iff]; omega
      simp [hpe, this]
    | some c =>
      obtain ⟨hlt, hc⟩ := List.getElem?_eq_some_iff.1 h
      have hd : pattern.drop p = c :: pattern.drop (p + 1) := by
        rw [List.drop_eq_getElem_cons hlt, hc]
      rw [hd]
      simp only
      by_cases hs : c = STAR
      · subst hs
        simp only [if_pos]
        cases h1 : pattern[p + 1]? with
        | none =>
          have h0 : pattern.drop (p + 1) = [] := List.drop_eq_nil_of_le (by simpa using h1)
          rw [h0, matchL_cons]; simp [asRun]
        | some nc =>
          obtain ⟨hlt1, hnc⟩ := List.getElem?_eq_some_iff.1 h1
          have hd1 : pattern.drop (p + 1) = nc :: pattern.drop (p + 1 + 1) := by
            rw [List.drop_eq_getElem_cons hlt1, hnc]
          simp only
          by_cases hs1 : nc = STAR
          · subst hs1
            simp only [if_pos]
            rw [ih v (p + 1) hv (by omega) (by omega), hd1, matchL_star_star]
          · rw [if_neg hs1, if_neg (by omega), hd1, matchL_cons]
            simp only [if_pos, List.dropWhile_cons_of_neg (p := (· = STAR)) (by simpa using hs1)]
            cases hi : indexByte nc (value.drop v) with
            | none =>
              rw [if_neg (indexByte_none.1 hi)]; rfl
            | some k =>
              have hk := indexByte_some hi
              rw [List.drop_drop] at hk
              rw [if_pos (by
                have := hk.2
                rw [Nat.add_comm] at this
                rw [← List.drop_drop] at this
                exact List.mem_of_mem_drop (by simpa [Nat.add_comm, List.drop_drop] using hk.2))]
              simp only [asRun]
              have hkl : v + k ≤ value.length := by
                have := hk.1; rw [List.length_drop] at this; omega
              -- the machine stays at this '*' for ever
              have stuck : ∀ m w, w ≤ value.length → nc ∈ value.drop w →
                  mrun value pattern m w p = none := by
                intro m
                induction m with
                | zero => intros; rfl
                | succ m ihm =>
                  intro w hw hmem
                  simp only [mrun, mstep, h, h1, if_pos, if_neg hs1]
                  rw [if_neg (by omega)]
                  cases hi2 : indexByte nc (value.drop w) with
                  | none => exact absurd hmem (indexByte_none.1 hi2)
                  | some k2 =>
                    have hk2 := indexByte_some hi2
                    rw [List.length_drop, List.drop_drop] at hk2
                    exact ihm (w + k2) (by omega) hk2.2
              exact stuck n (v + k) hkl hk.2
      · rw [if_neg hs, matchL_cons, if_neg hs]
        cases hv0 : value[v]? with
        | none =>
          have h0 : value.drop v = [] := List.drop_eq_nil_of_le (by simpa using hv0)
          rw [h0]; rfl
        | some d =>
          obtain ⟨hltv, hdv⟩ := List.getElem?_eq_some_iff.1 hv0
          have hdd : value.drop v = d :: value.drop (v + 1) := by
            rw [List.drop_eq_getElem_cons hltv, hdv]
          rw [hdd]
          simp only
          by_cases hcol : c = COLON
          · simp only [hcol, or_true, if_pos]
            obtain ⟨a1, a2, _⟩ := skipTo_spec value (v + 1)
            obtain ⟨b1, b2, b3⟩ := skipTo_spec pattern (p + 1)
            rw [ih _ _ (a2 (by omega)) (by omega) (b2 (by omega)), a1, b1]
          · by_cases hcd : c = d
            · subst hcd
              simp only [true_or, if_pos, if_neg hcol]
              rw [ih _ _ (by omega) (by omega) (by omega)]
            · simp [hcd, hcol, asRun]

theorem matchL_ne_panic (ps vs : Str) : matchL ps vs ≠ .panic := by
  fun_induction matchL ps vs <;> simp_all

theorem matchResource_eq_matchL (value pattern : Str) :
    matchResource value pattern = matchL pattern value := by
  unfold matchResource
  rw [mrun_eq value pattern _ 0 0 (by omega) (by omega) (by omega)]
  simp only [List.drop_zero]
  cases h : matchL pattern value <;> simp [asRun]

theorem dropWhile_head_slash (l : Str) :
    (l.dropWhile (· ≠ SLASH) = []) ∨ (l.dropWhile (· ≠ SLASH)).head? = some SLASH := by
  induction l with
  | nil => simp
  | cons a t ih =>
    by_cases h : a = SLASH
    · subst h; simp
    · rw [List.dropWhile_cons_of_pos (by simpa using h)]; exact ih

theorem takeWhile_no_slash (l : Str) : SLASH ∉ l.takeWhile (· ≠ SLASH) := by
  induction l with
  | nil => simp
  | cons a t ih =>
    by_cases h : a = SLASH
    · subst h; simp
    · rw [List.takeWhile_cons_of_pos (by simpa using h)]
      simp only [List.mem_cons, not_or]
      exact ⟨fun e => h e.symm, ih⟩

theorem dropWhile_append_slash {name ps : Str} (hn : SLASH ∉ name)
    (hp : ps = [] ∨ ps.head? = some SLASH) : (name ++ ps).dropWhile (· ≠ SLASH) = ps := by
  induction name with
  | nil =>
    rcases hp with rfl | hp
    · rfl
    · cases ps with
      | nil => rfl
      | cons a t => simp at hp; subst hp; simp
  | cons a t ih =>
    simp only [List.mem_cons, not_or] at hn
    rw [List.cons_append, List.dropWhile_cons_of_pos (by simpa using fun e => hn.1 e.symm)]
    exact ih hn.2

theorem dropWhile_star_nil {ps : Str} : ps.dropWhile (· = STAR) = [] ↔ ∀ c ∈ ps, c = STAR := by
  induction ps with
  | nil => simp
  | cons a t ih =>
    by_cases h : a = STAR
    · subst h; simpa using ih
    · rw [List.dropWhile_cons_of_neg (by simpa using h)]; simp [h]

theorem dropWhile_star_cons {ps : Str} {nc : UInt8} {t : Str} (h : ps.dropWhile (· = STAR) = nc :: t) :
    ∃ stars, (∀ s ∈ stars, s = STAR) ∧ nc ≠ STAR ∧ ps = stars ++ nc :: t := by
  refine ⟨ps.takeWhile (· = STAR), ?_, ?_, ?_⟩
  · intro s hs
    have := List.all_takeWhile (p := (· = STAR)) (l := ps)
    rw [List.all_eq_true] at this
    simpa using this s hs
  · intro e
    have := List.head?_dropWhile_not (p := (· = STAR)) (l := ps)
    rw [h] at this; simp [e] at this
  · rw [← h, List.takeWhile_append_dropWhile]

theorem dropWhile_stars {stars ps : Str} {c : UInt8} (h : ∀ s ∈ stars, s = STAR) (hc : c ≠ STAR) :
    (stars ++ c :: ps).dropWhile (· = STAR) = c :: ps := by
  induction stars with
  | nil => rw [List.nil_append, List.dropWhile_cons_of_neg (by simpa using hc)]
  | cons a t ih =>
    rw [List.cons_append, List.dropWhile_cons_of_pos (by simpa using h a (by simp))]
    exact ih (fun s hs => h s (by simp [hs]))

theorem not_slash_head {p : Str} : (p.head? = some SLASH) ↔ ∃ t, p = SLASH :: t := by
  cases p <;> simp

/-- A pattern starting with '/' (or empty) only matches values starting with '/' (or empty). -/
theorem matches_head {ps vs : Str} (h : Matches ps vs) (hp : ps = [] ∨ ps.head? = some SLASH) :
    vs = [] ∨ vs.head? = some SLASH := by
  cases h with
  | nil => left; rfl
  | lit h1 h2 h3 => right; simpa using hp
  | param => simp [SLASH] at hp
  | star => simp [SLASH] at hp

theorem matchL_true_iff (ps vs : Str) : matchL ps vs = .ok true ↔ Matches ps vs := by
  constructor
  · intro h
    induction ps, vs using matchL.induct with
    | case1 vs => rw [matchL_nil] at h; simp at h; subst h; exact .nil
    | case2 vs ps hd =>
      exact .star (dropWhile_star_nil.1 hd)
    | case3 vs ps nc t hd hm => rw [matchL_cons] at h; simp [hd, hm] at h
    | case4 vs ps nc t hd hm => rw [matchL_cons] at h; simp [hd, hm] at h
    | case5 c ps hs => rw [matchL_cons] at h; simp [hs] at h
    | case6 ps d vs hs ih =>
      rw [matchL_cons] at h
      simp only [if_neg hs, if_pos] at h
      have := ih h
      have e1 := List.takeWhile_append_dropWhile (p := (· ≠ SLASH)) (l := ps)
      have e2 := List.takeWhile_append_dropWhile (p := (· ≠ SLASH)) (l := vs)
      have := Matches.param (name := ps.takeWhile (· ≠ SLASH)) (x := d)
        (seg := vs.takeWhile (· ≠ SLASH)) (takeWhile_no_slash ps) (dropWhile_head_slash ps)
        (takeWhile_no_slash vs) this
      rw [e1, e2] at this
      exact this
    | case7 ps d vs hs hc ih =>
      rw [matchL_cons] at h
      simp only [if_neg hs, if_neg hc, if_pos] at h
      exact .lit hc hs (ih h)
    | case8 c ps hs d vs hc hcd =>
      rw [matchL_cons] at h
      simp [hs, hc, hcd] at h
  · intro h
    induction h with
    | nil => rw [matchL_nil]; rfl
    | lit h1 h2 _ ih =>
      rw [matchL_cons, if_neg (show ¬ _ = STAR from h2)]
      simp only [if_neg (show ¬ _ = COLON from h1), if_pos, ih]
    | @param name ps x seg vs h1 h2 h3 hm ih =>
      rw [matchL_cons, if_neg (by decide)]
      simp only [show (58 : UInt8) = COLON from rfl, if_pos]
      rw [dropWhile_append_slash h1 h2, dropWhile_append_slash h3 (matches_head hm h2), ih]
    | @star ps vs h1 =>
      rw [matchL_cons, if_pos (show (42 : UInt8) = STAR from rfl)]
      have := (dropWhile_star_nil (ps := ps)).2 h1
      rw [this]

theorem matchL_diverge_iff (ps vs : Str) : matchL ps vs = .diverge ↔ Hangs ps vs := by
  constructor
  · intro h
    induction ps, vs using matchL.induct with
    | case1 vs => rw [matchL_nil] at h; simp at h
    | case2 vs ps hd => rw [matchL_cons] at h; simp [hd] at h
    | case3 vs ps nc t hd hm =>
      obtain ⟨stars, h1, h2, rfl⟩ := dropWhile_star_cons hd
      exact .star h1 h2 hm
    | case4 vs ps nc t hd hm => rw [matchL_cons] at h; simp [hd, hm] at h
    | case5 c ps hs => rw [matchL_cons] at h; simp [hs] at h
    | case6 ps d vs hs ih =>
      rw [matchL_cons] at h
      simp only [if_neg hs, if_pos] at h
      have := ih h
      have e1 := List.takeWhile_append_dropWhile (p := (· ≠ SLASH)) (l := ps)
      have e2 := List.takeWhile_append_dropWhile (p := (· ≠ SLASH)) (l := vs)
      have := Hangs.param (name := ps.takeWhile (· ≠ SLASH)) (x := d)
        (seg := vs.takeWhile (· ≠ SLASH)) (takeWhile_no_slash ps) (dropWhile_head_slash ps)
        (takeWhile_no_slash vs) (dropWhile_head_slash vs) this
      rw [e1, e2] at this
      exact this
    | case7 ps d vs hs hc ih =>
      rw [matchL_cons] at h
      simp only [if_neg hs, if_neg hc, if_pos] at h
      exact .lit hc hs (ih h)
    | case8 c ps hs d vs hc hcd =>
      rw [matchL_cons] at h
      simp [hs, hc, hcd] at h
  · intro h
    induction h with
    | lit h1 h2 _ ih =>
      rw [matchL_cons, if_neg (show ¬ _ = STAR from h2)]
      simp only [if_neg (show ¬ _ = COLON from h1), if_pos, ih]
    | @param name ps x seg vs h1 h2 h3 h4 hm ih =>
      rw [matchL_cons, if_neg (by decide)]
      simp only [show (58 : UInt8) = COLON from rfl, if_pos]
      rw [dropWhile_append_slash h1 h2, dropWhile_append_slash h3 h4, ih]
    | @star stars c ps vs h1 h2 h3 =>
      rw [matchL_cons, if_pos (show (42 : UInt8) = STAR from rfl), dropWhile_stars h1 h2]
      simp [h3]

end Verif
