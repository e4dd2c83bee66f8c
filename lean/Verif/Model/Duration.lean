import Verif.Model.V2

/-!
# Model of `time.ParseDuration`

`PrincipalRole.SetExpiryDuration` (v2/v2.go:39-54) hands its text to `time.ParseDuration` (v2/v2.go:44) of the Go standard
library (time/format.go: `ParseDuration`, `leadingInt`, `leadingFraction`, `unitMap`), which is not part of /repo; it is
modelled as it is known to stand since Go 1.20 (go.mod:3 asks for 1.22).  The source of the library was not at hand, so
unlike the rest of the model this file could not be compared with the code; it is part of the trusted base.  The texts of its errors are not modelled.  Its `uint64` arithmetic wraps
at 2^64.  `fl f k u` is the floating point
expression `uint64(float64(f) * (float64(u) / scale))` after `k` digits (`frac64` in Model/Float64.lean).
-/

namespace Verif

/-- `'0' <= c && c <= '9'`. -/
def isDigit (c : UInt8) : Bool := 48 ≤ c && c ≤ 57

/-- `leadingInt` with the value so far: value and rest; `none` on overflow. -/
def leadingInt : Nat → Str → Option (Nat × Str)
  | x, [] => some (x, [])
  | x, c :: s =>
    if isDigit c then
      if x > 2 ^ 63 / 10 then none
      else if (x * 10 + (c.toNat - 48)) % 2 ^ 64 > 2 ^ 63 then none
      else leadingInt ((x * 10 + (c.toNat - 48)) % 2 ^ 64) s
    else some (x, c :: s)

/-- `leadingFraction` with the value, the number of digits in it (`scale` is 10 to this power) and the flag `overflow` so
far: value, digits, rest. -/
def leadingFraction : Nat → Nat → Bool → Str → Nat × Nat × Str
  | x, k, _, [] => (x, k, [])
  | x, k, overflow, c :: s =>
    if isDigit c then
      if overflow then leadingFraction x k true s
      else if x > (2 ^ 63 - 1) / 10 then leadingFraction x k true s
      else if (x * 10 + (c.toNat - 48)) % 2 ^ 64 > 2 ^ 63 then leadingFraction x k true s
      else leadingFraction ((x * 10 + (c.toNat - 48)) % 2 ^ 64) (k + 1) false s
    else (x, k, c :: s)

/-- `unitMap`, in nanoseconds.  Both spellings of micro are two bytes. -/
def unitMap : List (Str × Nat) :=
  [(str "ns", 1), (str "us", 1000), (str "µs", 1000), (str "μs", 1000), (str "ms", 1000000), (str "s", 1000000000),
   (str "m", 60000000000), (str "h", 3600000000000)]

/-- The optional fraction: value, digits, rest, and whether there was a digit. -/
def optFraction : Str → Nat × Nat × Str × Bool
  | 46 :: s =>
    let r := leadingFraction 0 0 false s
    (r.1, r.2.1, r.2.2, decide (r.2.2.length ≠ s.length))
  | s => (0, 0, s, false)

/-- A character that ends a unit: `c == '.' || '0' <= c && c <= '9'`. -/
def endsUnit (c : UInt8) : Bool := c == 46 || isDigit c

/-- The unit and the value of a term, given whole number, fraction and its digits, and the text from the unit on. -/
def parseUnit (fl : Nat → Nat → Nat → Nat) (v f k : Nat) (s : Str) : Option (Nat × Str) :=
  let u := s.takeWhile fun c => !endsUnit c
  if u = [] then none
  else
    match unitMap.lookup u with
    | none => none
    | some unit =>
      if v > 2 ^ 63 / unit then none
      else if f > 0 then
        let v := (v * unit % 2 ^ 64 + fl f k unit) % 2 ^ 64
        if v > 2 ^ 63 then none else some (v, s.dropWhile fun c => !endsUnit c)
      else some (v * unit % 2 ^ 64, s.dropWhile fun c => !endsUnit c)

/-- One round of the loop of `ParseDuration`: the value of a term and the rest; `none` is an error. -/
def parseTerm (fl : Nat → Nat → Nat → Nat) (s : Str) : Option (Nat × Str) :=
  if !endsUnit (s.headD 0) then none
  else
    match leadingInt 0 s with
    | none => none
    | some (v, s1) =>
      let r := optFraction s1
      if s1.length = s.length ∧ r.2.2.2 = false then none else parseUnit fl v r.1 r.2.1 r.2.2.1

/-- The loop of `ParseDuration` with the sum so far, a 64-bit number.  The first argument bounds the rounds; every round
takes at least one byte. -/
def parseTerms (fl : Nat → Nat → Nat → Nat) : Nat → Nat → Str → Option Nat
  | _, d, [] => some d
  | 0, _, _ :: _ => none
  | n + 1, d, c :: s =>
    match parseTerm fl (c :: s) with
    | none => none
    | some (v, rest) => if (d + v) % 2 ^ 64 > 2 ^ 63 then none else parseTerms fl n ((d + v) % 2 ^ 64) rest

/-- `ParseDuration` after the sign. -/
def parseUnsigned (fl : Nat → Nat → Nat → Nat) (neg : Bool) (s : Str) : Option Int :=
  if s = str "0" then some 0
  else if s = [] then none
  else
    match parseTerms fl s.length 0 s with
    | none => none
    | some d => if neg then some (-d) else if d > 2 ^ 63 - 1 then none else some d

/-- `time.ParseDuration`, in nanoseconds; `none` is an error. -/
def parseDuration (fl : Nat → Nat → Nat → Nat) : Str → Option Int
  | 45 :: s => parseUnsigned fl true s
  | 43 :: s => parseUnsigned fl false s
  | s => parseUnsigned fl false s

end Verif
