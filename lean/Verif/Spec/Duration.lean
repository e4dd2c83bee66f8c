import Verif.Base
import Mathlib.Data.List.Forall2

/-!
# Specification of durations
-/

namespace Verif.Spec

/-- The units and their lengths in nanoseconds. -/
def durationUnits : List (Str × Nat) :=
  [(str "h", 3600 * 10 ^ 9), (str "m", 60 * 10 ^ 9), (str "s", 10 ^ 9), (str "ms", 10 ^ 6), (str "us", 10 ^ 3),
   (str "µs", 10 ^ 3), (str "μs", 10 ^ 3), (str "ns", 1)]

/-- Decimal digits only. -/
def Digits (s : Str) : Prop := ∀ c ∈ s, 48 ≤ c ∧ c ≤ 57

/-- The number written in decimal. -/
def decimal (s : Str) : Nat := s.foldl (fun x c => 10 * x + (c.toNat - 48)) 0

/-- A number with an optional fraction, and a unit. -/
structure DTerm where
  whole : Str
  frac : Option Str
  unit : Str
  len : Nat

/-- How a term is written. -/
def DTerm.text (t : DTerm) : Str := t.whole ++ (match t.frac with
  | none => []
  | some f => 46 :: f) ++ t.unit

/-- The term is well formed: digits, at least one of them, and a known unit. -/
def DTerm.Ok (t : DTerm) : Prop := Digits t.whole ∧ (∀ f, t.frac = some f → Digits f) ∧
  (t.whole ≠ [] ∨ ∃ f, t.frac = some f ∧ f ≠ []) ∧ (t.unit, t.len) ∈ durationUnits

/-- `p` are the digits of a fraction that are looked at: the longest beginning that is at most 2^63. -/
def Kept (f p : Str) : Prop := p <+: f ∧ decimal p ≤ 2 ^ 63 ∧ ∀ q, q <+: f → decimal q ≤ 2 ^ 63 → q <+: p

/-- What the fraction is worth. -/
def FracWorth (fl : Nat → Nat → Nat → Nat) (len : Nat) : Option Str → Nat → Prop
  | none, v => v = 0
  | some f, v => ∃ p, Kept f p ∧ v = if decimal p = 0 then 0 else fl (decimal p) p.length len

/-- What the term is worth in nanoseconds; it is at most 2^63. -/
def DTerm.Worth (fl : Nat → Nat → Nat → Nat) (t : DTerm) (v : Nat) : Prop :=
  ∃ x, FracWorth fl t.len t.frac x ∧ v = decimal t.whole * t.len + x ∧ v ≤ 2 ^ 63

/-- `n` is the sum of `d` and the numbers `vs` in 64 bits, and no partial sum is above 2^63.  (Two summands of exactly 2^63
add up to 0.) -/
inductive Sum64 : Nat → List Nat → Nat → Prop where
  | nil {d : Nat} : Sum64 d [] d
  | cons {d v n : Nat} {vs : List Nat} : (d + v) % 2 ^ 64 ≤ 2 ^ 63 → Sum64 ((d + v) % 2 ^ 64) vs n → Sum64 d (v :: vs) n

/-- `s` consists of terms that are worth `vs`. -/
def Terms (fl : Nat → Nat → Nat → Nat) (s : Str) (vs : List Nat) : Prop :=
  ∃ ts : List DTerm, s = ts.flatMap DTerm.text ∧ List.Forall₂ (fun t v => t.Ok ∧ t.Worth fl v) ts vs

/-- `s` is a duration of `d` nanoseconds: an optional sign, then `0` or one or more terms. -/
def Duration (fl : Nat → Nat → Nat → Nat) (s : Str) (d : Int) : Prop :=
  ∃ sign rest, s = sign ++ rest ∧ sign ∈ [[], str "+", str "-"] ∧
    ((rest = str "0" ∧ d = 0) ∨
     ∃ vs n, vs ≠ [] ∧ Terms fl rest vs ∧ Sum64 0 vs n ∧
       ((sign = str "-" ∧ d = -n) ∨ (sign ≠ str "-" ∧ n < 2 ^ 63 ∧ d = n)))

end Verif.Spec
