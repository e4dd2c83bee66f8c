import Verif.Model.Float64
import Mathlib.Tactic.Linarith
import Mathlib.Tactic.Positivity
import Mathlib.Tactic.NormNum
import Mathlib.Tactic.FieldSimp
import Mathlib.Tactic.Ring
import Mathlib.Algebra.Order.Floor.Semiring

/-!
# How exact the fractions of durations are
-/

namespace Verif

theorem nearestEven_err (x : ℚ) : x - 1 / 2 ≤ nearestEven x ∧ (nearestEven x : ℚ) ≤ x + 1 / 2 := by
  have h1 := Int.floor_le x
  have h2 := Int.lt_floor_add_one x
  unfold nearestEven
  split_ifs <;> push_cast <;> constructor <;> linarith

theorem ulp_pos (x : ℚ) : 0 < ulp x := zpow_pos (by norm_num) _

theorem ulp_le {x : ℚ} (hx : 0 < x) : ulp x ≤ x / 2 ^ 52 := by
  have h := Int.zpow_log_le_self (R := ℚ) (b := 2) (by norm_num) hx
  unfold ulp
  rw [zpow_sub₀ (by norm_num)]
  have e : ((2 : ℚ) ^ (52 : ℤ)) = 2 ^ 52 := by norm_cast
  rw [e]
  gcongr
  exact_mod_cast h

/-- Rounding changes a number by at most the 2^53th part of it. -/
theorem round64_err {x : ℚ} (hx : 0 ≤ x) : x * (1 - 1 / 2 ^ 53) ≤ round64 x ∧ round64 x ≤ x * (1 + 1 / 2 ^ 53) := by
  rcases hx.eq_or_lt with rfl | hx
  · have : round64 0 = 0 := by
      unfold round64
      rw [zero_div]
      have : nearestEven 0 = 0 := by unfold nearestEven; norm_num
      rw [this]; norm_num
    rw [this]; norm_num
  · have hp := ulp_pos x
    have hl := ulp_le hx
    obtain ⟨h1, h2⟩ := nearestEven_err (x / ulp x)
    have e : x / ulp x * ulp x = x := div_mul_cancel₀ _ hp.ne'
    have k1 := mul_le_mul_of_nonneg_right h1 hp.le
    have k2 := mul_le_mul_of_nonneg_right h2 hp.le
    unfold round64
    constructor <;> nlinarith

theorem round64_nonneg {x : ℚ} (hx : 0 ≤ x) : 0 ≤ round64 x :=
  le_trans (mul_nonneg hx (by norm_num)) (round64_err hx).1

theorem scale64_err (k : Nat) : 10 ^ k * (1 - 1 / 2 ^ 53) ^ k ≤ scale64 k ∧ scale64 k ≤ 10 ^ k * (1 + 1 / 2 ^ 53) ^ k := by
  induction k with
  | zero => simp [scale64]
  | succ k ih =>
    obtain ⟨h1, h2⟩ := ih
    have h0 : (0 : ℚ) ≤ 10 ^ k * (1 - 1 / 2 ^ 53) ^ k := mul_nonneg (by positivity) (pow_nonneg (by norm_num) k)
    have hs : 0 ≤ scale64 k * 10 := by linarith
    obtain ⟨r1, r2⟩ := round64_err hs
    rw [scale64]
    constructor
    · refine le_trans ?_ r1
      have := mul_le_mul_of_nonneg_right h1 (show (0 : ℚ) ≤ 10 * (1 - 1 / 2 ^ 53) by norm_num)
      calc _ = 10 ^ k * (1 - 1 / 2 ^ 53) ^ k * (10 * (1 - 1 / 2 ^ 53)) := by ring
        _ ≤ _ := this
        _ = _ := by ring
    · refine le_trans r2 ?_
      have := mul_le_mul_of_nonneg_right h2 (show (0 : ℚ) ≤ 10 * (1 + 1 / 2 ^ 53) by norm_num)
      calc _ = scale64 k * (10 * (1 + 1 / 2 ^ 53)) := by ring
        _ ≤ _ := this
        _ = _ := by ring

theorem scale64_pos (k : Nat) : 0 < scale64 k :=
  lt_of_lt_of_le (mul_pos (by positivity) (pow_pos (by norm_num) k)) (scale64_err k).1

theorem scale64_mono (k : Nat) : scale64 k ≤ scale64 (k + 1) := by
  have h := scale64_pos k
  have := (round64_err (show 0 ≤ scale64 k * 10 by linarith)).1
  rw [scale64]
  refine le_trans ?_ this
  have : (1 : ℚ) ≤ 10 * (1 - 1 / 2 ^ 53) := by norm_num
  nlinarith

/-- Up to 40 digits the scale is right to the 2^46th part. -/
theorem scale64_small {k : Nat} (hk : k ≤ 40) : 10 ^ k * (1 - 1 / 2 ^ 46) ≤ scale64 k ∧ scale64 k ≤ 10 ^ k * (1 + 1 / 2 ^ 46) := by
  obtain ⟨h1, h2⟩ := scale64_err k
  constructor
  · refine le_trans ?_ h1
    gcongr
    calc (1 - 1 / 2 ^ 46 : ℚ) ≤ (1 - 1 / 2 ^ 53) ^ 40 := by norm_num
      _ ≤ _ := pow_le_pow_of_le_one (by norm_num) (by norm_num) hk
  · refine le_trans h2 ?_
    gcongr
    calc (1 + 1 / 2 ^ 53 : ℚ) ^ k ≤ (1 + 1 / 2 ^ 53) ^ 40 := pow_le_pow_right₀ (by norm_num) hk
      _ ≤ _ := by norm_num

theorem scale64_large {k : Nat} (hk : 40 ≤ k) : 10 ^ 40 * (1 - 1 / 2 ^ 46) ≤ scale64 k := by
  induction k, hk using Nat.le_induction with
  | base => exact (scale64_small (Nat.le_refl _)).1
  | succ k _ ih => exact le_trans ih (scale64_mono k)

/-- What is truncated in the end. -/
def frac64Raw (f k u : Nat) : ℚ := round64 (round64 f * round64 (round64 u / scale64 k))

theorem frac64Raw_nonneg (f k u : Nat) : 0 ≤ frac64Raw f k u := by
  have := scale64_pos k
  exact round64_nonneg (mul_nonneg (round64_nonneg (by positivity))
    (round64_nonneg (div_nonneg (round64_nonneg (by positivity)) this.le)))

theorem frac64Raw_le (f k u : Nat) {l : ℚ} (hl : 0 < l) (h : l ≤ scale64 k) :
    frac64Raw f k u ≤ f * u / l * (1 + 1 / 2 ^ 53) ^ 4 := by
  have hs := scale64_pos k
  have f0 : (0 : ℚ) ≤ f := by positivity
  have u0 : (0 : ℚ) ≤ u := by positivity
  have rf := (round64_err f0).2
  have ru := (round64_err u0).2
  have q0 : 0 ≤ round64 u / scale64 k := div_nonneg (round64_nonneg u0) hs.le
  have rq := (round64_err q0).2
  have q1 : round64 u / scale64 k ≤ u * (1 + 1 / 2 ^ 53) / l :=
    div_le_div₀ (by positivity) ru hl h
  have rq' : round64 (round64 u / scale64 k) ≤ u * (1 + 1 / 2 ^ 53) / l * (1 + 1 / 2 ^ 53) :=
    le_trans rq (mul_le_mul_of_nonneg_right q1 (by norm_num))
  have p0 : 0 ≤ round64 f * round64 (round64 u / scale64 k) := mul_nonneg (round64_nonneg f0) (round64_nonneg q0)
  have p1 : round64 f * round64 (round64 u / scale64 k) ≤
      f * (1 + 1 / 2 ^ 53) * (u * (1 + 1 / 2 ^ 53) / l * (1 + 1 / 2 ^ 53)) :=
    mul_le_mul rf rq' (round64_nonneg q0) (by positivity)
  calc frac64Raw f k u ≤ _ := (round64_err p0).2
    _ ≤ f * (1 + 1 / 2 ^ 53) * (u * (1 + 1 / 2 ^ 53) / l * (1 + 1 / 2 ^ 53)) * (1 + 1 / 2 ^ 53) :=
      mul_le_mul_of_nonneg_right p1 (by norm_num)
    _ = _ := by ring

theorem frac64Raw_ge (f k u : Nat) {l : ℚ} (h : scale64 k ≤ l) :
    f * u / l * (1 - 1 / 2 ^ 53) ^ 4 ≤ frac64Raw f k u := by
  have hs := scale64_pos k
  have hl : 0 < l := lt_of_lt_of_le hs h
  have c0 : (0 : ℚ) ≤ 1 - 1 / 2 ^ 53 := by norm_num
  have f0 : (0 : ℚ) ≤ f := by positivity
  have u0 : (0 : ℚ) ≤ u := by positivity
  have rf := (round64_err f0).1
  have ru := (round64_err u0).1
  have q0 : 0 ≤ round64 u / scale64 k := div_nonneg (round64_nonneg u0) hs.le
  have rq := (round64_err q0).1
  have q1 : u * (1 - 1 / 2 ^ 53) / l ≤ round64 u / scale64 k :=
    div_le_div₀ (round64_nonneg u0) ru hs h
  have rq' : u * (1 - 1 / 2 ^ 53) / l * (1 - 1 / 2 ^ 53) ≤ round64 (round64 u / scale64 k) :=
    le_trans (mul_le_mul_of_nonneg_right q1 c0) rq
  have p0 : 0 ≤ round64 f * round64 (round64 u / scale64 k) := mul_nonneg (round64_nonneg f0) (round64_nonneg q0)
  have p1 : f * (1 - 1 / 2 ^ 53) * (u * (1 - 1 / 2 ^ 53) / l * (1 - 1 / 2 ^ 53)) ≤
      round64 f * round64 (round64 u / scale64 k) :=
    mul_le_mul rf rq' (mul_nonneg (div_nonneg (mul_nonneg u0 c0) hl.le) c0) (round64_nonneg f0)
  calc _ = f * (1 - 1 / 2 ^ 53) * (u * (1 - 1 / 2 ^ 53) / l * (1 - 1 / 2 ^ 53)) * (1 - 1 / 2 ^ 53) := by ring
    _ ≤ _ := mul_le_mul_of_nonneg_right p1 c0
    _ ≤ _ := (round64_err p0).1

/-- Before truncation, a fraction of a unit of at most 2^42 nanoseconds is right to an eighth of a nanosecond. -/
theorem frac64Raw_close {f k u : Nat} (h1 : f < 10 ^ k) (h2 : f ≤ 2 ^ 63) (h3 : u ≤ 2 ^ 42) :
    (f * u / 10 ^ k : ℚ) - 1 / 8 ≤ frac64Raw f k u ∧ frac64Raw f k u ≤ f * u / 10 ^ k + 1 / 8 := by
  have h1' : (f : ℚ) ≤ 10 ^ k := by exact_mod_cast h1.le
  have h2' : (f : ℚ) ≤ 2 ^ 63 := by exact_mod_cast h2
  have h3' : (u : ℚ) ≤ 2 ^ 42 := by exact_mod_cast h3
  have f0 : (0 : ℚ) ≤ f := by positivity
  have u0 : (0 : ℚ) ≤ u := by positivity
  have y0 : (0 : ℚ) ≤ f * u / 10 ^ k := by positivity
  rcases Nat.le_total k 40 with hk | hk
  · obtain ⟨s1, s2⟩ := scale64_small hk
    have y1 : (f * u / 10 ^ k : ℚ) ≤ 2 ^ 42 := by
      rw [div_le_iff₀ (by positivity)]
      calc (f * u : ℚ) ≤ 10 ^ k * 2 ^ 42 := mul_le_mul h1' h3' u0 (by positivity)
        _ = _ := by ring
    have a := frac64Raw_le f k u (mul_pos (by positivity) (by norm_num)) s1
    have b := frac64Raw_ge f k u s2
    have ea : (f * u / (10 ^ k * (1 - 1 / 2 ^ 46)) * (1 + 1 / 2 ^ 53) ^ 4 : ℚ) =
        f * u / 10 ^ k * ((1 + 1 / 2 ^ 53) ^ 4 / (1 - 1 / 2 ^ 46)) := by
      rw [div_mul_eq_div_div]; ring
    have eb : (f * u / (10 ^ k * (1 + 1 / 2 ^ 46)) * (1 - 1 / 2 ^ 53) ^ 4 : ℚ) =
        f * u / 10 ^ k * ((1 - 1 / 2 ^ 53) ^ 4 / (1 + 1 / 2 ^ 46)) := by
      rw [div_mul_eq_div_div]; ring
    rw [ea] at a; rw [eb] at b
    have ca : ((1 + 1 / 2 ^ 53) ^ 4 / (1 - 1 / 2 ^ 46) : ℚ) ≤ 1 + 1 / 2 ^ 45 := by norm_num
    have cb : (1 - 1 / 2 ^ 45 : ℚ) ≤ (1 - 1 / 2 ^ 53) ^ 4 / (1 + 1 / 2 ^ 46) := by norm_num
    have a' := le_trans a (mul_le_mul_of_nonneg_left ca y0)
    have b' := le_trans (mul_le_mul_of_nonneg_left cb y0) b
    constructor <;> linarith
  · have a := frac64Raw_le f k u (by norm_num) (scale64_large hk)
    have n0 := frac64Raw_nonneg f k u
    have fu : (f * u : ℚ) ≤ 2 ^ 63 * 2 ^ 42 := mul_le_mul h2' h3' u0 (by positivity)
    have y1 : (f * u / 10 ^ k : ℚ) ≤ 1 / 8 := by
      calc (f * u / 10 ^ k : ℚ) ≤ 2 ^ 63 * 2 ^ 42 / 10 ^ 40 :=
            div_le_div₀ (by positivity) fu (by positivity) (pow_le_pow_right₀ (by norm_num) hk)
        _ ≤ _ := by norm_num
    have a' : frac64Raw f k u ≤ 1 / 8 := by
      refine le_trans a ?_
      calc (f * u / (10 ^ 40 * (1 - 1 / 2 ^ 46)) * (1 + 1 / 2 ^ 53) ^ 4 : ℚ) ≤
            2 ^ 63 * 2 ^ 42 / (10 ^ 40 * (1 - 1 / 2 ^ 46)) * (1 + 1 / 2 ^ 53) ^ 4 := by
            gcongr
        _ ≤ _ := by norm_num
    constructor <;> linarith

/-- A fraction of a unit is worth at most one unit. -/
theorem frac64_le {f k u : Nat} (h1 : f < 10 ^ k) (h2 : f ≤ 2 ^ 63) (h3 : u ≤ 2 ^ 42) : frac64 f k u ≤ u := by
  have h := (frac64Raw_close h1 h2 h3).2
  have h1' : (f : ℚ) ≤ 10 ^ k := by exact_mod_cast h1.le
  have y1 : (f * u / 10 ^ k : ℚ) ≤ u := by
    rw [div_le_iff₀ (by positivity), mul_comm]
    exact mul_le_mul_of_nonneg_left h1' (by positivity)
  have : frac64 f k u < u + 1 := by
    show ⌊frac64Raw f k u⌋₊ < u + 1
    rw [Nat.floor_lt (frac64Raw_nonneg f k u)]
    push_cast
    linarith
  omega

/-- What a fraction is worth, to little more than a nanosecond. -/
theorem frac64_close {f k u : Nat} (h1 : f < 10 ^ k) (h2 : f ≤ 2 ^ 63) (h3 : u ≤ 2 ^ 42) :
    (f * u / 10 ^ k : ℚ) - 9 / 8 < frac64 f k u ∧ (frac64 f k u : ℚ) ≤ f * u / 10 ^ k + 1 / 8 := by
  obtain ⟨a, b⟩ := frac64Raw_close h1 h2 h3
  have c := Nat.floor_le (frac64Raw_nonneg f k u)
  have d := Nat.lt_floor_add_one (frac64Raw f k u)
  have e : frac64 f k u = ⌊frac64Raw f k u⌋₊ := rfl
  rw [e]
  constructor <;> linarith

end Verif
