import Verif.Model.Duration
import Verif.Spec.Duration
import Verif.Lemmas.Float64
import Verif.Props.V2Revoke

/-!
# Package v2: which texts set an expiry (C139)
-/

namespace Verif
open Spec

/-! ## Numbers -/

/-- `decimal` from a value so far. -/
def dec (x : Nat) (s : Str) : Nat := s.foldl (fun x c => 10 * x + (c.toNat - 48)) x

theorem dec_zero (s : Str) : dec 0 s = decimal s := rfl

theorem dec_cons (x : Nat) (c : UInt8) (s : Str) : dec x (c :: s) = dec (10 * x + (c.toNat - 48)) s := by
  unfold dec; rw [List.foldl_cons]

theorem dec_le (x : Nat) (s : Str) : x ≤ dec x s := by
  induction s generalizing x with
  | nil => exact Nat.le_refl x
  | cons c s ih => rw [dec_cons]; exact Nat.le_trans (by omega) (ih _)

theorem dec_append (x : Nat) (s t : Str) : dec x (s ++ t) = dec (dec x s) t := by
  unfold dec; rw [List.foldl_append]

theorem isDigit_iff {c : UInt8} : isDigit c = true ↔ 48 ≤ c ∧ c ≤ 57 := by simp [isDigit]

theorem digits_cons {c : UInt8} {s : Str} : Digits (c :: s) ↔ isDigit c = true ∧ Digits s := by
  unfold Digits
  rw [isDigit_iff]
  exact List.forall_mem_cons

theorem digit_lt {c : UInt8} (h : isDigit c = true) : c.toNat - 48 < 10 := by
  have := (isDigit_iff.1 h).2
  have : c.toNat ≤ 57 := UInt8.le_iff_toNat_le.1 this
  omega

theorem dec_lt {s : Str} (h : Digits s) {x k : Nat} (hx : x < 10 ^ k) : dec x s < 10 ^ (k + s.length) := by
  induction s generalizing x k with
  | nil => exact hx
  | cons c s ih =>
    obtain ⟨h1, h2⟩ := digits_cons.1 h
    have := digit_lt h1
    rw [dec_cons, List.length_cons, show k + (s.length + 1) = k + 1 + s.length by omega]
    refine ih h2 ?_
    rw [Nat.pow_succ]; omega

/-- The text does not go on with a digit. -/
def NoDigit (r : Str) : Prop := ∀ c s, r = c :: s → isDigit c = false

theorem leadingInt_eq {ds r : Str} (hd : Digits ds) (hr : NoDigit r) {x : Nat} (hx : x ≤ 2 ^ 63) :
    leadingInt x (ds ++ r) = if dec x ds ≤ 2 ^ 63 then some (dec x ds, r) else none := by
  induction ds generalizing x with
  | nil =>
    rw [show dec x [] = x from rfl, if_pos hx]
    cases r with
    | nil => rfl
    | cons c s => simp [leadingInt, hr c s rfl]
  | cons c ds ih =>
    obtain ⟨h1, h2⟩ := digits_cons.1 hd
    have hc := dec_le (10 * x + (c.toNat - 48)) ds
    have hd := digit_lt h1
    rw [List.cons_append, leadingInt, if_pos h1, dec_cons]
    split
    · rw [if_neg (by omega)]
    · rw [show (x * 10 + (c.toNat - 48)) % 2 ^ 64 = 10 * x + (c.toNat - 48) by omega]
      split
      · rw [if_neg (by omega)]
      · rw [ih h2 (by omega)]

/-- The digits of a fraction that are looked at, from a value so far. -/
def keptOf : Nat → Str → Str
  | _, [] => []
  | x, c :: s => if 10 * x + (c.toNat - 48) ≤ 2 ^ 63 then c :: keptOf (10 * x + (c.toNat - 48)) s else []

theorem leadingFraction_over {ds r : Str} (hd : Digits ds) (hr : NoDigit r) {x k : Nat} :
    leadingFraction x k true (ds ++ r) = (x, k, r) := by
  induction ds with
  | nil =>
    cases r with
    | nil => rfl
    | cons c s => simp [leadingFraction, hr c s rfl]
  | cons c ds ih =>
    obtain ⟨h1, h2⟩ := digits_cons.1 hd
    rw [List.cons_append, leadingFraction, if_pos h1, if_pos rfl, ih h2]

theorem leadingFraction_eq {ds r : Str} (hd : Digits ds) (hr : NoDigit r) {x k : Nat} :
    leadingFraction x k false (ds ++ r) = (dec x (keptOf x ds), k + (keptOf x ds).length, r) := by
  induction ds generalizing x k with
  | nil =>
    cases r with
    | nil => rfl
    | cons c s => simp [leadingFraction, hr c s rfl, keptOf, dec]
  | cons c ds ih =>
    obtain ⟨h1, h2⟩ := digits_cons.1 hd
    have e : ∀ k, (dec x [], k + ([] : Str).length, r) = (x, k, r) := fun k => rfl
    rw [List.cons_append, leadingFraction, if_pos h1, if_neg (by simp), keptOf]
    have hd := digit_lt h1
    split
    · rw [if_neg (by omega), leadingFraction_over h2 hr, e]
    · rw [show (x * 10 + (c.toNat - 48)) % 2 ^ 64 = 10 * x + (c.toNat - 48) by omega]
      split
      · rw [if_neg (by omega), leadingFraction_over h2 hr, e]
      · rw [if_pos (by omega), ih h2, dec_cons, List.length_cons, Nat.add_assoc, Nat.add_comm 1]

theorem keptOf_spec (x : Nat) (hx : x ≤ 2 ^ 63) (ds : Str) : keptOf x ds <+: ds ∧ dec x (keptOf x ds) ≤ 2 ^ 63 ∧
    ∀ q, q <+: ds → dec x q ≤ 2 ^ 63 → q <+: keptOf x ds := by
  induction ds generalizing x with
  | nil => exact ⟨List.prefix_refl _, hx, fun q hq _ => hq⟩
  | cons c ds ih =>
    rw [keptOf]
    split
    · rename_i hy
      obtain ⟨h1, h2, h3⟩ := ih _ hy
      refine ⟨(List.prefix_cons_inj c).2 h1, h2, fun q hq hd => ?_⟩
      cases q with
      | nil => exact List.nil_prefix
      | cons c' q =>
        obtain ⟨rfl, hq'⟩ := List.cons_prefix_cons.1 hq
        exact (List.prefix_cons_inj c').2 (h3 q hq' hd)
    · rename_i hy
      refine ⟨List.nil_prefix, hx, fun q hq hd => ?_⟩
      cases q with
      | nil => exact List.nil_prefix
      | cons c' q =>
        obtain ⟨rfl, hq⟩ := List.cons_prefix_cons.1 hq
        rw [dec_cons] at hd
        have := dec_le (10 * x + (c'.toNat - 48)) q
        omega

theorem kept_iff {f p : Str} : Kept f p ↔ p = keptOf 0 f := by
  obtain ⟨h1, h2, h3⟩ := keptOf_spec 0 (by omega) f
  constructor
  · rintro ⟨k1, k2, k3⟩
    exact (h3 p k1 k2).eq_of_length_le ((k3 _ h1 h2).length_le)
  · rintro rfl; exact ⟨h1, h2, h3⟩

/-! ## Units -/

theorem unit_chars : ∀ e ∈ durationUnits, e.1 ≠ [] ∧ 0 < e.2 ∧ e.2 ≤ 3600 * 10 ^ 9 ∧ ∀ c ∈ e.1, endsUnit c = false := by
  decide +kernel

theorem lookup_unit {u : Str} {n : Nat} : unitMap.lookup u = some n ↔ (u, n) ∈ durationUnits := by
  constructor
  · intro h
    have : (u, n) ∈ unitMap := by
      generalize unitMap = l at h
      induction l with
      | nil => cases h
      | cons e l ih =>
        rw [List.lookup_cons] at h
        split at h
        · rename_i he
          cases h
          rw [show u = e.1 by simpa using he]; exact List.mem_cons_self
        · exact List.mem_cons_of_mem _ (ih h)
    exact (by decide +kernel : ∀ e ∈ unitMap, e ∈ durationUnits) _ this
  · intro h
    exact (by decide +kernel : ∀ e ∈ durationUnits, unitMap.lookup e.1 = some e.2) _ h

/-- A fraction of at most an hour is worth at most one unit. -/
def Sane (fl : Nat → Nat → Nat → Nat) : Prop := ∀ f k u, f < 10 ^ k → f ≤ 2 ^ 63 → u ≤ 3600 * 10 ^ 9 → fl f k u ≤ u

/-- The floating point arithmetic is like this. -/
theorem frac64_sane : Sane frac64 := fun _ _ _ h1 h2 h3 => frac64_le h1 h2 (Nat.le_trans h3 (by decide))

variable {fl : Nat → Nat → Nat → Nat}

/-- The text is at its end or goes on with a digit or a point. -/
def AtTerm (r : Str) : Prop := ∀ c s, r = c :: s → endsUnit c = true

theorem takeWhile_unit {u r : Str} (hu : ∀ c ∈ u, endsUnit c = false) (hr : AtTerm r) :
    (u ++ r).takeWhile (fun c => !endsUnit c) = u ∧ (u ++ r).dropWhile (fun c => !endsUnit c) = r := by
  induction u with
  | nil =>
    cases r with
    | nil => exact ⟨rfl, rfl⟩
    | cons c s => simp [hr c s rfl]
  | cons c u ih =>
    have hc := hu c List.mem_cons_self
    obtain ⟨h1, h2⟩ := ih fun c' h => hu c' (List.mem_cons_of_mem _ h)
    simp [hc, h1, h2]

/-- What the two parts of the fraction are. -/
def fracParts : Option Str → Nat × Nat
  | none => (0, 0)
  | some f => (dec 0 (keptOf 0 f), (keptOf 0 f).length)

/-- How an optional fraction is written. -/
def fracText : Option Str → Str
  | none => []
  | some f => 46 :: f

theorem fracWorth_iff {len v : Nat} {fo : Option Str} : FracWorth fl len fo v ↔
    v = if (fracParts fo).1 = 0 then 0 else fl (fracParts fo).1 (fracParts fo).2 len := by
  cases fo with
  | none => simp [FracWorth, fracParts]
  | some f =>
    simp only [FracWorth, kept_iff, exists_eq_left, fracParts, dec_zero]
    rfl

theorem keptOf_digits {x : Nat} {f : Str} (h : Digits f) : Digits (keptOf x f) := by
  induction f generalizing x with
  | nil => exact h
  | cons c f ih =>
    obtain ⟨h1, h2⟩ := digits_cons.1 h
    rw [keptOf]
    split
    · exact digits_cons.2 ⟨h1, ih h2⟩
    · exact fun c hc => by cases hc

theorem fracParts_lt {fo : Option Str} (h : ∀ f, fo = some f → Digits f) :
    (fracParts fo).1 < 10 ^ (fracParts fo).2 ∧ (fracParts fo).1 ≤ 2 ^ 63 := by
  cases fo with
  | none => decide
  | some f =>
    have := dec_lt (keptOf_digits (x := 0) (h f rfl)) (x := 0) (k := 0) (by decide)
    rw [Nat.zero_add] at this
    exact ⟨this, (keptOf_spec 0 (by omega) f).2.1⟩

/-- `parseTerm` on a text cut into whole number, fraction and the rest. -/
theorem parseTerm_cut {ds r : Str} {fo : Option Str} (hd : Digits ds) (hf : ∀ f, fo = some f → Digits f) (hr : NoDigit r)
    (hp : fo = none → ∀ s, r ≠ 46 :: s) :
    parseTerm fl (ds ++ fracText fo ++ r) = if decimal ds ≤ 2 ^ 63 ∧ (ds ≠ [] ∨ ∃ f, fo = some f ∧ f ≠ []) then
      parseUnit fl (decimal ds) (fracParts fo).1 (fracParts fo).2 r else none := by
  have hr1 : NoDigit (fracText fo ++ r) := by
    cases fo with
    | none => exact hr
    | some f => intro c s h; cases h; rfl
  have ho : optFraction (fracText fo ++ r) =
      ((fracParts fo).1, (fracParts fo).2, r, decide (∃ f, fo = some f ∧ f ≠ [])) := by
    cases fo with
    | none =>
      show optFraction r = _
      cases r with
      | nil => simp [optFraction, fracParts]
      | cons c s =>
        unfold optFraction
        split
        · rename_i h; exact absurd h (hp rfl _)
        · simp [fracParts]
    | some f =>
      show optFraction (46 :: (f ++ r)) = _
      rw [optFraction, leadingFraction_eq (hf f rfl) hr]
      simp [fracParts, List.length_append]
  have hh : endsUnit ((ds ++ fracText fo ++ r).headD 0) = true ∨ (ds = [] ∧ fo = none) := by
    cases ds with
    | cons c ds => left; simp [endsUnit, (digits_cons.1 hd).1]
    | nil =>
      cases fo with
      | none => right; exact ⟨rfl, rfl⟩
      | some f => left; rfl
  unfold parseTerm
  split
  · rename_i h1
    rcases hh with hh | ⟨rfl, rfl⟩
    · rw [hh] at h1; cases h1
    · rw [if_neg (by simp)]
  · rw [List.append_assoc, leadingInt_eq hd hr1 (by omega), dec_zero]
    split
    · rename_i h2
      split at h2
      · cases h2
      · rename_i h3
        rw [if_neg fun h => h3 h.1]
    · rename_i v s1 h2
      split at h2
      · rename_i h3
        cases h2
        simp only [ho]
        by_cases hc : ds ≠ [] ∨ ∃ f, fo = some f ∧ f ≠ []
        · have hn : ¬ ((fracText fo ++ r).length = (ds ++ (fracText fo ++ r)).length ∧
              decide (∃ f, fo = some f ∧ f ≠ []) = false) := by
            rintro ⟨k1, k2⟩
            rcases hc with hc | hc
            · have := List.length_pos_iff.2 hc
              rw [List.length_append (as := ds)] at k1; omega
            · exact of_decide_eq_false k2 hc
          rw [if_neg hn, if_pos ⟨h3, hc⟩]
        · have hn : (fracText fo ++ r).length = (ds ++ (fracText fo ++ r)).length ∧
              decide (∃ f, fo = some f ∧ f ≠ []) = false := by
            refine ⟨?_, decide_eq_false fun h => hc (.inr h)⟩
            have : ds = [] := Classical.byContradiction fun h => hc (.inl h)
            rw [this]; rfl
          rw [if_pos hn, if_neg fun h => hc h.2]
      · cases h2

/-- `parseUnit` on a unit and the rest. -/
theorem parseUnit_cut (hs : Sane fl) {v f k : Nat} (hfk : f < 10 ^ k ∧ f ≤ 2 ^ 63) {u r : Str} (hu : ∀ c ∈ u, endsUnit c = false)
    (hr : AtTerm r) {x : Nat} {r' : Str} : parseUnit fl v f k (u ++ r) = some (x, r') ↔ r' = r ∧ ∃ n, (u, n) ∈ durationUnits ∧
      x = v * n + (if f = 0 then 0 else fl f k n) ∧ x ≤ 2 ^ 63 := by
  obtain ⟨h1, h2⟩ := takeWhile_unit hu hr
  unfold parseUnit
  simp only [h1, h2]
  split
  · rename_i h
    subst h
    constructor
    · intro h; cases h
    · rintro ⟨_, n, h, _⟩
      exact absurd rfl (unit_chars _ h).1
  · split
    · rename_i h
      constructor
      · intro h; cases h
      · rintro ⟨_, n, h', _⟩
        rw [lookup_unit.2 h'] at h; cases h
    · rename_i n h
      have hn := lookup_unit.1 h
      obtain ⟨-, hn0, hn1, -⟩ := unit_chars _ hn
      have hfl := hs f k n hfk.1 hfk.2 hn1
      have huniq : ∀ m, (u, m) ∈ durationUnits → m = n := fun m hm => by
        have := lookup_unit.2 hm
        rw [h] at this; cases this; rfl
      have hdiv : v > 2 ^ 63 / n ↔ 2 ^ 63 < v * n := by
        rw [gt_iff_lt, Nat.div_lt_iff_lt_mul hn0]
      simp only at hn0 hn1
      split
      · rename_i hv
        constructor
        · intro h; cases h
        · rintro ⟨_, m, hm, rfl, hle⟩
          rw [huniq m hm] at hle
          have := hdiv.1 hv
          omega
      · rename_i hv
        have hv' : v * n ≤ 2 ^ 63 := by
          have := mt hdiv.2 hv; omega
        rw [Nat.mod_eq_of_lt (show v * n < 2 ^ 64 by omega)]
        split
        · rename_i hf
          have hmod : (v * n + fl f k n) % 2 ^ 64 = v * n + fl f k n := Nat.mod_eq_of_lt (by omega)
          rw [hmod]
          split
          · constructor
            · intro h; cases h
            · rintro ⟨_, m, hm, rfl, hle⟩
              rw [huniq m hm, if_neg (by omega)] at hle
              omega
          · constructor
            · intro h; cases h
              exact ⟨rfl, n, hn, by rw [if_neg (by omega)], by omega⟩
            · rintro ⟨rfl, m, hm, rfl, hle⟩
              rw [huniq m hm, if_neg (by omega)]
        · have hf0 : f = 0 := by omega
          subst hf0
          constructor
          · intro h; cases h
            exact ⟨rfl, n, hn, by simp, by omega⟩
          · rintro ⟨rfl, m, hm, rfl, hle⟩
            rw [huniq m hm]; simp

theorem noDigit_unit {u r : Str} (hu : ∀ c ∈ u, endsUnit c = false) (hne : u ≠ []) : NoDigit (u ++ r) ∧ ∀ s, u ++ r ≠ 46 :: s := by
  cases u with
  | nil => exact absurd rfl hne
  | cons c u =>
    have hc := hu c List.mem_cons_self
    refine ⟨fun c' s h => ?_, fun s h => ?_⟩
    · cases h
      simp [endsUnit] at hc; exact hc.2
    · cases h; simp [endsUnit] at hc

/-- A well-formed term is parsed to its worth. -/
theorem parseTerm_ok (hs : Sane fl) {t : DTerm} (ht : t.Ok) {v : Nat} (hv : t.Worth fl v) {r : Str} (hr : AtTerm r) :
    parseTerm fl (t.text ++ r) = some (v, r) := by
  obtain ⟨h1, h2, h3, h4⟩ := ht
  obtain ⟨x, h5, h6, h7⟩ := hv
  obtain ⟨u1, u2, -, u3⟩ := unit_chars _ h4
  simp only at u1 u2 u3
  obtain ⟨n1, n2⟩ := noDigit_unit (r := r) u3 u1
  have e : t.text ++ r = t.whole ++ fracText t.frac ++ (t.unit ++ r) := by
    unfold DTerm.text fracText
    simp only [List.append_assoc]
    cases t.frac <;> rfl
  have hle : decimal t.whole ≤ decimal t.whole * t.len := Nat.le_mul_of_pos_right _ u2
  rw [e, parseTerm_cut h1 h2 n1 fun _ => n2, if_pos ⟨by omega, h3⟩, parseUnit_cut hs (fracParts_lt h2) u3 hr]
  exact ⟨rfl, t.len, h4, by rw [← fracWorth_iff.1 h5]; exact h6, h7⟩

theorem text_atTerm {t : DTerm} (ht : t.Ok) {r : Str} : AtTerm (t.text ++ r) ∧ t.text ≠ [] := by
  obtain ⟨h1, h2, h3, h4⟩ := ht
  unfold DTerm.text
  cases hw : t.whole with
  | cons c w =>
    rw [hw] at h1
    refine ⟨fun c' s h => ?_, by simp⟩
    simp only [List.cons_append, List.cons.injEq] at h
    rw [← h.1]
    simp [endsUnit, (digits_cons.1 h1).1]
  | nil =>
    cases hf : t.frac with
    | none => simp [hw, hf] at h3
    | some f =>
      refine ⟨fun c' s h => ?_, by simp⟩
      simp only [List.nil_append, List.cons_append, List.cons.injEq] at h
      rw [← h.1]; rfl

theorem cut_digits (s : Str) : ∃ ds r, s = ds ++ r ∧ Digits ds ∧ NoDigit r := by
  induction s with
  | nil => exact ⟨[], [], rfl, (fun c h => by cases h), fun c s h => by cases h⟩
  | cons c s ih =>
    cases hc : isDigit c with
    | true =>
      obtain ⟨ds, r, h1, h2, h3⟩ := ih
      exact ⟨c :: ds, r, by rw [h1]; rfl, digits_cons.2 ⟨hc, h2⟩, h3⟩
    | false => exact ⟨[], c :: s, rfl, (fun c h => by cases h), fun c' s' h => by cases h; exact hc⟩

theorem cut_unit (s : Str) : ∃ u r, s = u ++ r ∧ (∀ c ∈ u, endsUnit c = false) ∧ AtTerm r := by
  induction s with
  | nil => exact ⟨[], [], rfl, (fun c h => by cases h), fun c s h => by cases h⟩
  | cons c s ih =>
    cases hc : endsUnit c with
    | false =>
      obtain ⟨ds, r, h1, h2, h3⟩ := ih
      exact ⟨c :: ds, r, by rw [h1]; rfl, fun c' h => by
        rcases List.mem_cons.1 h with rfl | h
        · exact hc
        · exact h2 c' h, h3⟩
    | true => exact ⟨[], c :: s, rfl, (fun c h => by cases h), fun c' s' h => by cases h; exact hc⟩

/-- What is parsed begins with a well-formed term. -/
theorem parseTerm_some (hs : Sane fl) {s r : Str} {v : Nat} (h : parseTerm fl s = some (v, r)) :
    ∃ t : DTerm, t.Ok ∧ t.Worth fl v ∧ s = t.text ++ r := by
  obtain ⟨ds, s1, rfl, hd, h1⟩ := cut_digits s
  obtain ⟨fo, s2, rfl, hf, h2, hp⟩ : ∃ fo s2, s1 = fracText fo ++ s2 ∧ (∀ f, fo = some f → Digits f) ∧ NoDigit s2 ∧
      (fo = none → ∀ s, s2 ≠ 46 :: s) := by
    by_cases hc : ∃ s, s1 = 46 :: s
    · obtain ⟨s, rfl⟩ := hc
      obtain ⟨fs, r, rfl, k1, k2⟩ := cut_digits s
      exact ⟨some fs, r, rfl, fun f hf => by cases hf; exact k1, k2, fun h => by cases h⟩
    · exact ⟨none, s1, rfl, (fun f hf => by cases hf), h1, fun _ s hs => hc ⟨s, hs⟩⟩
  obtain ⟨u, r', rfl, hu, hr⟩ := cut_unit s2
  rw [← List.append_assoc, parseTerm_cut hd hf h2 hp] at h
  split at h
  · rename_i hc
    obtain ⟨rfl, n, k1, k2, k3⟩ := (parseUnit_cut hs (fracParts_lt hf) hu hr).1 h
    refine ⟨⟨ds, fo, u, n⟩, ⟨hd, hf, hc.2, k1⟩, ⟨_, fracWorth_iff.2 rfl, k2, k3⟩, ?_⟩
    unfold DTerm.text
    cases fo <;> simp [fracText]
  · cases h

theorem parseTerms_iff (hs : Sane fl) {n d m : Nat} {s : Str} (hn : s.length ≤ n) :
    parseTerms fl n d s = some m ↔ ∃ vs, Terms fl s vs ∧ Sum64 d vs m := by
  induction n generalizing d s with
  | zero =>
    have : s = [] := List.length_eq_zero_iff.1 (by omega)
    subst this
    constructor
    · intro h; cases h
      exact ⟨[], ⟨[], rfl, .nil⟩, .nil⟩
    · rintro ⟨vs, ⟨ts, h1, h2⟩, h3⟩
      cases h2 with
      | nil => cases h3; rfl
      | @cons t v ts vs g1 g2 =>
        have := (text_atTerm g1.1 (r := [])).2
        rw [List.flatMap_cons] at h1
        exact absurd (List.append_eq_nil_iff.1 h1.symm).1 this
  | succ n ih =>
    cases s with
    | nil =>
      constructor
      · intro h; cases h
        exact ⟨[], ⟨[], rfl, .nil⟩, .nil⟩
      · rintro ⟨vs, ⟨ts, h1, h2⟩, h3⟩
        cases h2 with
        | nil => cases h3; rfl
        | @cons t v ts vs g1 g2 =>
          have := (text_atTerm g1.1 (r := [])).2
          rw [List.flatMap_cons] at h1
          exact absurd (List.append_eq_nil_iff.1 h1.symm).1 this
    | cons c s =>
      rw [parseTerms]
      constructor
      · intro h
        split at h
        · cases h
        · rename_i v rest hp
          obtain ⟨t, t1, t2, t3⟩ := parseTerm_some hs hp
          split at h
          · cases h
          · rename_i hle
            have hl : rest.length ≤ n := by
              have := congrArg List.length t3
              have := List.length_pos_iff.2 (text_atTerm t1 (r := [])).2
              simp only [List.length_append, List.length_cons] at *
              omega
            obtain ⟨vs, ⟨ts, k1, k2⟩, k3⟩ := (ih hl).1 h
            refine ⟨v :: vs, ⟨t :: ts, ?_, .cons ⟨t1, t2⟩ k2⟩, .cons (by omega) k3⟩
            rw [t3, k1, List.flatMap_cons]
      · rintro ⟨vs, ⟨ts, h1, h2⟩, h3⟩
        cases h2 with
        | nil => cases h1
        | @cons t v ts vs g1 g2 =>
          rw [List.flatMap_cons] at h1
          have hr : AtTerm (ts.flatMap DTerm.text) := by
            cases g2 with
            | nil => intro c s h; cases h
            | @cons t' v' ts' vs' g3 g4 => rw [List.flatMap_cons]; exact (text_atTerm g3.1).1
          rw [h1, parseTerm_ok hs g1.1 g1.2 hr]
          cases h3 with
          | cons k1 k2 =>
            simp only
            rw [if_neg (by omega)]
            have hl : (ts.flatMap DTerm.text).length ≤ n := by
              have := congrArg List.length h1
              have := List.length_pos_iff.2 (text_atTerm g1.1 (r := [])).2
              simp only [List.length_append, List.length_cons] at *
              omega
            exact (ih hl).2 ⟨vs, ⟨ts, rfl, g2⟩, k2⟩

theorem terms_head {c : UInt8} {s : Str} {vs : List Nat} (h : Terms fl (c :: s) vs) : endsUnit c = true := by
  obtain ⟨ts, h1, h2⟩ := h
  cases h2 with
  | nil => cases h1
  | @cons t v ts vs g1 g2 =>
    rw [List.flatMap_cons] at h1
    exact (text_atTerm g1.1).1 c s h1.symm

theorem terms_nil {vs : List Nat} (h : Terms fl [] vs) : vs = [] := by
  obtain ⟨ts, h1, h2⟩ := h
  cases h2 with
  | nil => rfl
  | @cons t v ts vs g1 g2 =>
    rw [List.flatMap_cons] at h1
    exact absurd (List.append_eq_nil_iff.1 h1.symm).1 (text_atTerm g1.1 (r := [])).2

theorem terms_of_nil {s : Str} (h : Terms fl s []) : s = [] := by
  obtain ⟨ts, h1, h2⟩ := h
  cases h2
  exact h1

theorem zero_not_terms (hs : Sane fl) {vs : List Nat} {n : Nat} : ¬ (Terms fl (str "0") vs ∧ Sum64 0 vs n) := by
  intro h
  have := (parseTerms_iff hs (Nat.le_refl _)).2 ⟨vs, h⟩
  have e : parseTerms fl (str "0").length 0 (str "0") = none := rfl
  rw [e] at this; cases this

theorem parseUnsigned_iff (hs : Sane fl) {neg : Bool} {s : Str} {d : Int} : parseUnsigned fl neg s = some d ↔
    (s = str "0" ∧ d = 0) ∨ ∃ vs n, vs ≠ [] ∧ Terms fl s vs ∧ Sum64 0 vs n ∧
      ((neg = true ∧ d = -n) ∨ (neg = false ∧ n < 2 ^ 63 ∧ d = n)) := by
  unfold parseUnsigned
  split
  · rename_i h
    subst h
    constructor
    · intro h; cases h; exact .inl ⟨rfl, rfl⟩
    · rintro (⟨-, rfl⟩ | ⟨vs, n, -, h2, h3, -⟩)
      · rfl
      · exact absurd ⟨h2, h3⟩ (zero_not_terms hs)
  · rename_i h0
    split
    · rename_i h
      subst h
      constructor
      · intro h; cases h
      · rintro (⟨h, -⟩ | ⟨vs, n, h1, h2, -⟩)
        · exact absurd h h0
        · exact absurd (terms_nil h2) h1
    · rename_i hne
      have key := fun m => parseTerms_iff (m := m) (d := 0) hs (Nat.le_refl s.length)
      cases hp : parseTerms fl s.length 0 s with
      | none =>
        constructor
        · intro h; cases h
        · rintro (⟨h, -⟩ | ⟨vs, n, h1, h2, h3, -⟩)
          · exact absurd h h0
          · have := (key n).2 ⟨vs, h2, h3⟩
            rw [hp] at this; cases this
      | some m =>
        obtain ⟨vs, t1, t2⟩ := (key m).1 hp
        have hvs : vs ≠ [] := by
          rintro rfl
          exact hne (terms_of_nil t1)
        have uniq : ∀ ws n, Terms fl s ws → Sum64 0 ws n → n = m := fun ws n h2 h3 => by
          have := (key n).2 ⟨ws, h2, h3⟩
          rw [hp] at this; cases this; rfl
        simp only
        cases neg with
        | true =>
          rw [if_pos rfl]
          constructor
          · intro h; cases h
            exact .inr ⟨vs, m, hvs, t1, t2, .inl ⟨rfl, rfl⟩⟩
          · rintro (⟨h, -⟩ | ⟨ws, n, h1, h2, h3, ⟨-, rfl⟩ | ⟨h, -⟩⟩)
            · exact absurd h h0
            · rw [uniq ws n h2 h3]
            · cases h
        | false =>
          rw [if_neg (by simp)]
          split
          · constructor
            · intro h; cases h
            · rintro (⟨h, -⟩ | ⟨ws, n, h1, h2, h3, ⟨h, -⟩ | ⟨-, h, -⟩⟩)
              · exact absurd h h0
              · cases h
              · rw [uniq ws n h2 h3] at h; omega
          · constructor
            · intro h; cases h
              exact .inr ⟨vs, m, hvs, t1, t2, .inr ⟨rfl, by omega, rfl⟩⟩
            · rintro (⟨h, -⟩ | ⟨ws, n, h1, h2, h3, ⟨h, -⟩ | ⟨-, -, rfl⟩⟩)
              · exact absurd h h0
              · cases h
              · rw [uniq ws n h2 h3]

theorem str_plus : str "+" = [43] := by decide +kernel
theorem str_minus : str "-" = [45] := by decide +kernel
theorem str_zero : str "0" = [48] := by decide +kernel

/-- C139. The texts read are exactly the durations, each with its value. -/
theorem C139_parse (hs : Sane fl) (s : Str) (d : Int) : parseDuration fl s = some d ↔ Spec.Duration fl s d := by
  have sg : ∀ {sign : Str}, sign ∈ [[], str "+", str "-"] ↔ sign = [] ∨ sign = [43] ∨ sign = [45] := by
    intro sign; rw [str_plus, str_minus]; simp
  have nohead : ∀ {c : UInt8} {t : Str} {vs : List Nat}, endsUnit c = false → ¬ Terms fl (c :: t) vs := fun hc h => by
    rw [terms_head h] at hc; cases hc
  unfold Spec.Duration
  simp only [sg]
  simp only [str_minus]
  unfold parseDuration
  split
  · rename_i s
    rw [parseUnsigned_iff hs]
    constructor
    · rintro (h | ⟨vs, n, h1, h2, h3, ⟨-, h4⟩ | ⟨h, -⟩⟩)
      · exact ⟨[45], s, rfl, .inr (.inr rfl), .inl h⟩
      · exact ⟨[45], s, rfl, .inr (.inr rfl), .inr ⟨vs, n, h1, h2, h3, .inl ⟨rfl, h4⟩⟩⟩
      · cases h
    · rintro ⟨sign, rest, h, rfl | rfl | rfl, k⟩
      · simp only [List.nil_append] at h
        subst h
        rcases k with ⟨k, -⟩ | ⟨vs, n, -, k, -⟩
        · rw [str_zero] at k; cases k
        · exact absurd k (nohead (by decide))
      · cases h
      · cases h
        rcases k with k | ⟨vs, n, h1, h2, h3, ⟨-, h4⟩ | ⟨h, -⟩⟩
        · exact .inl k
        · exact .inr ⟨vs, n, h1, h2, h3, .inl ⟨rfl, h4⟩⟩
        · exact absurd rfl h
  · rename_i s
    rw [parseUnsigned_iff hs]
    constructor
    · rintro (h | ⟨vs, n, h1, h2, h3, ⟨h, -⟩ | ⟨-, h4⟩⟩)
      · exact ⟨[43], s, rfl, .inr (.inl rfl), .inl h⟩
      · cases h
      · exact ⟨[43], s, rfl, .inr (.inl rfl), .inr ⟨vs, n, h1, h2, h3, .inr ⟨by decide, h4⟩⟩⟩
    · rintro ⟨sign, rest, h, rfl | rfl | rfl, k⟩
      · simp only [List.nil_append] at h
        subst h
        rcases k with ⟨k, -⟩ | ⟨vs, n, -, k, -⟩
        · rw [str_zero] at k; cases k
        · exact absurd k (nohead (by decide))
      · cases h
        rcases k with k | ⟨vs, n, h1, h2, h3, ⟨h, -⟩ | ⟨-, h4⟩⟩
        · exact .inl k
        · cases h
        · exact .inr ⟨vs, n, h1, h2, h3, .inr ⟨rfl, h4⟩⟩
      · cases h
  · rename_i n45 n43
    rw [parseUnsigned_iff hs]
    constructor
    · rintro (h | ⟨vs, n, h1, h2, h3, ⟨h, -⟩ | ⟨-, h4⟩⟩)
      · exact ⟨[], s, rfl, .inl rfl, .inl h⟩
      · cases h
      · exact ⟨[], s, rfl, .inl rfl, .inr ⟨vs, n, h1, h2, h3, .inr ⟨by decide, h4⟩⟩⟩
    · rintro ⟨sign, rest, h, rfl | rfl | rfl, k⟩
      · simp only [List.nil_append] at h
        subst h
        rcases k with k | ⟨vs, n, h1, h2, h3, ⟨h, -⟩ | ⟨-, h4⟩⟩
        · exact .inl k
        · cases h
        · exact .inr ⟨vs, n, h1, h2, h3, .inr ⟨rfl, h4⟩⟩
      · exact absurd h (n43 _)
      · exact absurd h (n45 _)

theorem sum64_of_le {d : Nat} {vs : List Nat} (h : d + vs.sum ≤ 2 ^ 63) : Sum64 d vs (d + vs.sum) := by
  induction vs generalizing d with
  | nil => exact .nil
  | cons v vs ih =>
    rw [List.sum_cons] at h ⊢
    have e : (d + v) % 2 ^ 64 = d + v := Nat.mod_eq_of_lt (by omega)
    refine .cons (by omega) ?_
    rw [e, ← Nat.add_assoc]
    exact ih (by omega)

/-- C139. Terms that add up to less than 2^63 nanoseconds (about 292 years) are read as their sum, with either sign. -/
theorem C139_sum (hs : Sane fl) {s : Str} {vs : List Nat} (hne : vs ≠ []) (ht : Terms fl s vs) (hv : vs.sum < 2 ^ 63) :
    parseDuration fl s = some (vs.sum : Int) ∧ parseDuration fl (str "+" ++ s) = some (vs.sum : Int) ∧
      parseDuration fl (str "-" ++ s) = some (-(vs.sum : Int)) := by
  have hsum : Sum64 0 vs vs.sum := by
    have := sum64_of_le (d := 0) (vs := vs) (by omega)
    rwa [Nat.zero_add] at this
  refine ⟨(C139_parse hs _ _).2 ⟨[], s, rfl, by simp, .inr ⟨vs, _, hne, ht, hsum, .inr ⟨by decide +kernel, hv, rfl⟩⟩⟩,
    (C139_parse hs _ _).2 ⟨_, s, rfl, by simp, .inr ⟨vs, _, hne, ht, hsum, .inr ⟨by decide +kernel, hv, rfl⟩⟩⟩,
    (C139_parse hs _ _).2 ⟨_, s, rfl, by simp, .inr ⟨vs, _, hne, ht, hsum, .inl ⟨rfl, rfl⟩⟩⟩⟩

/-- The bytes of durations: digits, point, signs and the bytes of units (`h m s n u` and those of the two micro signs). -/
def durationByte (c : UInt8) : Bool :=
  endsUnit c || c == 43 || c == 45 || [104, 109, 115, 110, 117, 194, 181, 206, 188].contains c

theorem unit_bytes : ∀ e ∈ durationUnits, ∀ c ∈ e.1, durationByte c = true := by decide +kernel

theorem terms_bytes {s : Str} {vs : List Nat} (h : Terms fl s vs) : ∀ c ∈ s, durationByte c = true := by
  obtain ⟨ts, rfl, h2⟩ := h
  intro c hc
  induction h2 with
  | nil => cases hc
  | @cons t v ts vs g1 g2 ih =>
    rw [List.flatMap_cons] at hc
    rcases List.mem_append.1 hc with hc | hc
    · obtain ⟨⟨k1, k2, -, k4⟩, -⟩ := g1
      have dig : ∀ {f : Str}, Digits f → c ∈ f → durationByte c = true := fun hf hm => by
        simp [durationByte, endsUnit, isDigit_iff.2 (hf c hm)]
      unfold DTerm.text at hc
      rcases List.mem_append.1 hc with hc | hc
      · rcases List.mem_append.1 hc with hc | hc
        · exact dig k1 hc
        · cases hf : t.frac with
          | none => rw [hf] at hc; cases hc
          | some f =>
            rw [hf] at hc
            rcases List.mem_cons.1 hc with rfl | hc
            · rfl
            · exact dig (k2 f hf) hc
      · exact unit_bytes _ k4 c hc
    · exact ih hc

/-- C139. A text with any other byte (a space, `d`, `y`, a capital letter) is not read. -/
theorem C139_bytes (hs : Sane fl) {s : Str} {c : UInt8} (hc : c ∈ s) (hb : durationByte c = false) :
    parseDuration fl s = none := by
  cases h : parseDuration fl s with
  | none => rfl
  | some d =>
    obtain ⟨sign, rest, rfl, h1, h2⟩ := (C139_parse hs _ _).1 h
    have : durationByte c = true := by
      rcases List.mem_append.1 hc with hc | hc
      · exact (by decide +kernel : ∀ sg ∈ [[], str "+", str "-"], ∀ c ∈ sg, durationByte c = true) _ h1 c hc
      · rcases h2 with ⟨rfl, -⟩ | ⟨vs, n, -, ht, -⟩
        · exact (by decide +kernel : ∀ c ∈ str "0", durationByte c = true) c hc
        · exact terms_bytes ht c hc
    rw [hb] at this; cases this

theorem terms_last {s : Str} {vs : List Nat} (h : Terms fl s vs) (hne : vs ≠ []) : ∃ c ∈ s, endsUnit c = false := by
  obtain ⟨ts, rfl, h2⟩ := h
  cases h2 with
  | nil => exact absurd rfl hne
  | @cons t v ts vs g1 g2 =>
    obtain ⟨u1, -, -, u3⟩ := unit_chars _ g1.1.2.2.2
    cases hu : t.unit with
    | nil => exact absurd hu u1
    | cons c u =>
      refine ⟨c, ?_, u3 c (by simp [hu])⟩
      rw [List.flatMap_cons]
      simp [DTerm.text, hu]

/-- C139. The empty text is not read, and no number without unit other than `0`. -/
theorem C139_unitless (hs : Sane fl) {s : Str} (h0 : s ≠ str "0") (hd : ∀ c ∈ s, endsUnit c = true) :
    parseDuration fl s = none := by
  cases h : parseDuration fl s with
  | none => rfl
  | some d =>
    obtain ⟨sign, rest, rfl, h1, h2⟩ := (C139_parse hs _ _).1 h
    rcases h2 with ⟨rfl, -⟩ | ⟨vs, n, hne, ht, -⟩
    · rw [str_plus, str_minus] at h1
      simp only [List.mem_cons, List.not_mem_nil, or_false] at h1
      rcases h1 with rfl | rfl | rfl
      · exact absurd rfl h0
      · have := hd 43 (by simp); exact absurd this (by decide)
      · have := hd 45 (by simp); exact absurd this (by decide)
    · obtain ⟨c, k1, k2⟩ := terms_last ht hne
      rw [hd c (List.mem_append.2 (.inr k1))] at k2; cases k2

/-! ## How exact fractions are -/

theorem dec_split (x : Nat) (s : Str) : dec x s = x * 10 ^ s.length + decimal s := by
  induction s generalizing x with
  | nil => simp [dec, decimal]
  | cons c s ih =>
    rw [dec_cons, ih, ← dec_zero (c :: s), dec_cons, ih, List.length_cons, Nat.pow_succ]
    ring

/-- What a term says, exactly: the number written, in nanoseconds. -/
def Spec.DTerm.says (t : DTerm) : ℚ := (decimal t.whole + (match t.frac with
  | none => 0
  | some f => (decimal f : ℚ) / 10 ^ f.length)) * t.len

/-- The digits of a fraction that are not looked at change it by less than the 10^18th part. -/
theorem kept_close {f p : Str} (hf : Digits f) (h : Kept f p) :
    (decimal p : ℚ) / 10 ^ p.length ≤ decimal f / 10 ^ f.length ∧
      (decimal f : ℚ) / 10 ^ f.length ≤ decimal p / 10 ^ p.length + 1 / 10 ^ 18 := by
  obtain ⟨⟨q, rfl⟩, h2, h3⟩ := h
  have hq : Digits q := fun c hc => hf c (List.mem_append.2 (.inr hc))
  have hp : Digits p := fun c hc => hf c (List.mem_append.2 (.inl hc))
  have e : decimal (p ++ q) = decimal p * 10 ^ q.length + decimal q := by
    rw [← dec_zero, dec_append, dec_split, dec_zero]
  have e' : (decimal (p ++ q) : ℚ) / 10 ^ (p ++ q).length =
      decimal p / 10 ^ p.length + decimal q / 10 ^ (p.length + q.length) := by
    rw [e, List.length_append]
    push_cast
    rw [pow_add]
    field_simp
  have q0 : (0 : ℚ) ≤ decimal q / 10 ^ (p.length + q.length) := by positivity
  rw [e']
  refine ⟨by linarith, ?_⟩
  cases q with
  | nil =>
    have : decimal [] = 0 := rfl
    rw [this]; norm_num
  | cons c q =>
    have hlong : 18 ≤ p.length := by
      refine Classical.byContradiction fun hn => ?_
      have hd : Digits (p ++ [c]) := fun x hx => hf x (by
        rcases List.mem_append.1 hx with hx | hx
        · exact List.mem_append.2 (.inl hx)
        · exact List.mem_append.2 (.inr (by rw [List.mem_singleton.1 hx]; exact List.mem_cons_self)))
      have hlt := dec_lt hd (x := 0) (k := 0) (by decide)
      rw [dec_zero, Nat.zero_add, List.length_append] at hlt
      have : 10 ^ (p.length + [c].length) ≤ 10 ^ 18 := Nat.pow_le_pow_right (by decide) (by simp; omega)
      have := (h3 (p ++ [c]) ⟨q, by simp⟩ (Nat.le_trans (Nat.le_of_lt hlt) (Nat.le_trans this (by decide)))).length_le
      simp at this
    have hlt := dec_lt hq (x := 0) (k := 0) (by decide)
    rw [dec_zero, Nat.zero_add] at hlt
    have hlt' : (decimal (c :: q) : ℚ) ≤ 10 ^ (c :: q).length := by exact_mod_cast hlt.le
    have : (decimal (c :: q) : ℚ) / 10 ^ (p.length + (c :: q).length) ≤ 1 / 10 ^ 18 := by
      rw [pow_add, div_mul_eq_div_div_swap]
      refine div_le_div₀ (by norm_num) ?_ (by positivity) (pow_le_pow_right₀ (by norm_num) hlong)
      rw [div_le_one (by positivity)]; exact hlt'
    linarith

/-- C139. What a term is worth is less than two nanoseconds from the number it says; without fraction it is exactly that. -/
theorem C139_close {t : DTerm} (ht : t.Ok) {v : Nat} (hv : t.Worth frac64 v) :
    t.says - 2 < v ∧ (v : ℚ) < t.says + 2 ∧ (t.frac = none → (v : ℚ) = t.says) := by
  obtain ⟨h1, h2, -, h4⟩ := ht
  obtain ⟨x, hx, rfl, -⟩ := hv
  obtain ⟨-, -, hlen, -⟩ := unit_chars _ h4
  simp only at hlen
  have hl : (t.len : ℚ) ≤ 3600 * 10 ^ 9 := by exact_mod_cast hlen
  have l0 : (0 : ℚ) ≤ t.len := by positivity
  unfold DTerm.says
  cases hf : t.frac with
  | none =>
    rw [hf] at hx
    have : x = 0 := hx
    subst this
    push_cast
    refine ⟨by linarith, by linarith, fun _ => by ring⟩
  | some f =>
    rw [hf] at hx
    obtain ⟨p, hk, rfl⟩ := hx
    obtain ⟨c1, c2⟩ := kept_close (h2 f hf) hk
    have hp : Digits p := fun c hc => h2 f hf c (hk.1.subset hc)
    have hlt := dec_lt hp (x := 0) (k := 0) (by decide)
    rw [dec_zero, Nat.zero_add] at hlt
    obtain ⟨d1, d2⟩ := frac64_close hlt hk.2.1 (Nat.le_trans hlen (by decide))
    have g1 := mul_le_mul_of_nonneg_right c1 l0
    have g2 := mul_le_mul_of_nonneg_right c2 l0
    have e : (decimal p * t.len / 10 ^ p.length : ℚ) = decimal p / 10 ^ p.length * t.len := by ring
    rw [e] at d1 d2
    have small : (1 / 10 ^ 18 * t.len : ℚ) ≤ 1 / 8 := by
      have : (1 / 10 ^ 18 * (3600 * 10 ^ 9) : ℚ) ≤ 1 / 8 := by norm_num
      linarith
    by_cases hz : decimal p = 0
    · rw [if_pos hz]
      rw [hz] at g1 g2
      push_cast at *
      simp only [zero_div, zero_mul] at g1 g2
      refine ⟨by linarith, by linarith, fun h => by cases h⟩
    · rw [if_neg hz]
      push_cast
      refine ⟨by linarith, by linarith, fun h => by cases h⟩

/-- C139. The number said need not be rounded down: a third of an hour, cut after 19 digits, is read as 20 minutes.  Other
fractions with many digits, and one that cannot be read. -/
example : parseDuration frac64 (str "0.3333333333333333333h") = some 1200000000000 ∧
    parseDuration frac64 (str "0.100000000000000000000h") = some 360000000000 ∧
    parseDuration frac64 (str "0.830103483285477580700h") = some 2988372539827 ∧
    parseDuration frac64 (str "39h9m14.425s") = some 140954425000000 ∧
    parseDuration frac64 (str ".5s") = some 500000000 ∧ parseDuration frac64 (str "1.s") = some 1000000000 ∧
    parseDuration frac64 (str "52763797000ns") = some 52763797000 ∧ parseDuration frac64 (str ".s") = none := by decide +kernel

/-- C139. A term with a fraction: "1.5h". -/
example : ∃ t : DTerm, t.text = str "1.5h" ∧ t.Ok ∧ t.Worth frac64 5400000000000 ∧ t.says = 5400000000000 := by
  refine ⟨⟨str "1", some (str "5"), str "h", 3600 * 10 ^ 9⟩, by decide +kernel,
    ⟨by unfold Digits; decide +kernel, fun f h => ?_, by decide +kernel, by decide +kernel⟩,
    ⟨1800000000000, ⟨str "5", kept_iff.2 (by decide +kernel), by decide +kernel⟩, by decide +kernel, by decide +kernel⟩, ?_⟩
  · cases h; unfold Digits; decide +kernel
  · have h1 : decimal (str "1") = 1 := by decide +kernel
    have h2 : decimal (str "5") = 5 := by decide +kernel
    have h3 : (str "5").length = 1 := by decide +kernel
    simp only [DTerm.says, h1, h2, h3]
    norm_num

/-! ## What this means for assignments -/

/-- C139, as intended: whoever sets an expiry duration and gets no error has an assignment that ends. -/
def C139_full : Prop := ∀ (u : PR) (now : Int) (s : Str),
  ∃ e, ∀ t, e < t → (u.setExpiryDuration (parseDuration frac64) now (.str s)).expired t = true

/-- C139. "1d" is not read, so the assignment of a day never ends. -/
theorem C139_counterexample (hs : Sane fl) (u : PR) (hu : u.expiry = none) (now t : Int) :
    (u.setExpiryDuration (parseDuration fl) now (.str (str "1d"))).expired t = false := by
  have : parseDuration fl (str "1d") = none := C139_bytes hs (c := 100) (by decide +kernel) (by decide)
  simp [PR.setExpiryDuration, this, PR.expired, hu]

/-- C139. So the intended property fails. -/
theorem C139_full_false : ¬ C139_full := by
  intro h
  obtain ⟨e, he⟩ := h {} 0 (str "1d")
  have := he (e + 1) (by omega)
  rw [C139_counterexample frac64_sane {} rfl] at this
  cases this

/-- C139. A duration sets the expiry to that long after now; any other text leaves the assignment as it was. -/
theorem C139_partial (hs : Sane fl) (u : PR) (now : Int) (s : Str) :
    (∀ d, Spec.Duration fl s d →
      ∀ t, (u.setExpiryDuration (parseDuration fl) now (.str s)).expired t = true ↔ now + d < t) ∧
    ((∀ d, ¬ Spec.Duration fl s d) → u.setExpiryDuration (parseDuration fl) now (.str s) = u) := by
  refine ⟨fun d h t => ?_, fun h => ?_⟩
  · simp [PR.setExpiryDuration, (C139_parse hs s d).2 h, PR.expired]
  · cases hp : parseDuration fl s with
    | none => simp [PR.setExpiryDuration, hp]
    | some d => exact absurd ((C139_parse hs s d).1 hp) (h d)

/-- C139. An assignment without expiry ends after the call exactly if the text is a duration. -/
theorem C139_exact (hs : Sane fl) (u : PR) (hu : u.expiry = none) (now : Int) (s : Str) :
    (∃ t, (u.setExpiryDuration (parseDuration fl) now (.str s)).expired t = true) ↔ ∃ d, Spec.Duration fl s d := by
  obtain ⟨h1, h2⟩ := C139_partial hs u now s
  constructor
  · rintro ⟨t, ht⟩
    refine Classical.byContradiction fun hn => ?_
    rw [h2 fun d hd => hn ⟨d, hd⟩] at ht
    simp [PR.expired, hu] at ht
  · rintro ⟨d, hd⟩
    exact ⟨now + d + 1, (h1 d hd _).2 (by omega)⟩

/-- C139. With a text that is no duration the call changes nothing at all, so no decision at any time. -/
theorem C139_noop (hs : Sane fl) {w v : V2} {i : Nat} {now : Int} {s : Str} (hn : ∀ d, ¬ Spec.Duration fl s d)
    (h : V2Op.apply w (.setExpiryDuration i (parseDuration fl) now (.str s)) = .ok v) : v = w := by
  obtain ⟨u, h1, rfl⟩ := Out.map_eq_ok.1 h
  simp only [(C139_partial hs u now s).2 hn]
  have hi : w.prs[i]? = some u := by
    simp only [V2.prAt] at h1
    split at h1
    · cases h1
    · cases h1; assumption
  have : w.prs.set i u = w.prs := by
    apply List.ext_getElem?
    intro j
    rw [List.getElem?_set]
    split
    · rename_i hj; subst hj
      split
      · exact hi.symm
      · rename_i hl; rw [List.getElem?_eq_none (by omega)]
    · rfl
  rw [this]

/-- C139. "1.5h", "-2m30s" and "0" are durations; "1d", "30 days", "3600", "", "1h " and a number of hours above 2^63
nanoseconds are not; two terms of 2^63 nanoseconds add up to 0. -/
example : parseDuration frac64 (str "1.5h") = some 5400000000000 ∧ parseDuration frac64 (str "-2m30s") = some (-150000000000) ∧
    parseDuration frac64 (str "0") = some 0 ∧ parseDuration frac64 (str "1d") = none ∧
    parseDuration frac64 (str "30 days") = none ∧ parseDuration frac64 (str "3600") = none ∧
    parseDuration frac64 [] = none ∧ parseDuration frac64 (str "1h ") = none ∧
    parseDuration frac64 (str "2562048h") = none ∧ parseDuration frac64 (str "2562047h") = some 9223369200000000000 ∧
    parseDuration frac64 (str "9223372036854775808ns") = none ∧
    parseDuration frac64 (str "-9223372036854775808ns") = some (-9223372036854775808) ∧
    parseDuration frac64 (str "9223372036854775808ns9223372036854775808ns") = some 0 := by decide +kernel

/-- C139. A case of `C139_sum`: "2m30s". -/
example : Terms frac64 (str "2m30s") [120000000000, 30000000000] :=
  ⟨[⟨str "2", none, str "m", 60 * 10 ^ 9⟩, ⟨str "30", none, str "s", 10 ^ 9⟩], by decide +kernel,
    .cons ⟨⟨by unfold Digits; decide +kernel, fun f h => (by cases h), by decide +kernel, by decide +kernel⟩,
      ⟨0, rfl, by decide +kernel, by decide +kernel⟩⟩
    (.cons ⟨⟨by unfold Digits; decide +kernel, fun f h => (by cases h), by decide +kernel, by decide +kernel⟩,
      ⟨0, rfl, by decide +kernel, by decide +kernel⟩⟩ .nil)⟩

end Verif
