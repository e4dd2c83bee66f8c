import Mathlib.Data.Int.Log
import Mathlib.Data.Rat.Floor

/-!
# Model of the floating point arithmetic in `time.ParseDuration`

`time.ParseDuration`, called at v2/v2.go:44, computes what a fraction is worth as
`uint64(float64(f) * (float64(unit) / scale))`, with `scale` a float64 multiplied by 10 for each digit.  Values are exact
rationals that are not negative; every operation rounds to 53 binary digits, to the nearest and from the middle to the
even one (IEEE 754).  The range of exponents is not bounded here: it could be left only with more than 300 digits of
which all but the last 19 are 0, and then the result is 0 either way.  As in Model/Duration.lean, the source of the
library was not at hand.
-/

namespace Verif

/-- The nearest integer; the even one from the middle. -/
def nearestEven (x : ℚ) : ℤ :=
  if x - ⌊x⌋ < 1 / 2 then ⌊x⌋
  else if 1 / 2 < x - ⌊x⌋ then ⌊x⌋ + 1
  else if ⌊x⌋ % 2 = 0 then ⌊x⌋ else ⌊x⌋ + 1

/-- The weight of the last of 53 binary digits. -/
def ulp (x : ℚ) : ℚ := 2 ^ (Int.log 2 x - 52)

/-- Rounding to float64. -/
def round64 (x : ℚ) : ℚ := nearestEven (x / ulp x) * ulp x

/-- `scale` after `k` digits (`scale *= 10`). -/
def scale64 : Nat → ℚ
  | 0 => 1
  | k + 1 => round64 (scale64 k * 10)

/-- `uint64(float64(f) * (float64(unit) / scale))`. -/
def frac64 (f k u : Nat) : Nat := ⌊round64 (round64 f * round64 (round64 u / scale64 k))⌋₊

end Verif
