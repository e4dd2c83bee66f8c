import Verif.Base

/-!
# Model of `utils.MatchResource` (/repo/utils/str.go:33-88)
-/

namespace Verif

/-- `'*'` -/
def STAR : UInt8 := 42
/-- `':'` -/
def COLON : UInt8 := 58
/-- `'/'` -/
def SLASH : UInt8 := 47
/-- `' '` -/
def SPACE : UInt8 := 32

/-- `strings.IndexByte` (used at utils/str.go:54); `none` is -1. -/
def indexByte (c : UInt8) : Str → Option Nat
  | [] => none
  | d :: t => if d = c then some 0 else (indexByte c t).map (· + 1)

/-- utils/str.go:70-73 and 75-77: `for i < len(s) && s[i] != '/' { i++ }`.
The first argument bounds the iterations; `skipTo` passes `len(s)`, which is enough. -/
def skipLoop (s : Str) : Nat → Nat → Nat
  | 0, i => i
  | n + 1, i =>
    match s[i]? with
    | some c => if c = SLASH then i else skipLoop s n (i + 1)
    | none => i

/-- The completed inner loop started at index `i`. -/
def skipTo (s : Str) (i : Nat) : Nat := skipLoop s s.length i

/-- Result of one iteration of the outer loop: leave the function, or go on with new indices. -/
inductive MStep where
  | ret (r : Out Bool)
  | cont (v p : Nat)

/-- One evaluation of the loop condition and, if it holds, of the loop body
(utils/str.go:37-84), or the final comparison (line 87).
`v`, `p` are `vIndex`, `pIndex`. Slicing `value[vIndex:]` beyond the end panics (line 54). -/
def mstep (value pattern : Str) (v p : Nat) : MStep :=
  match pattern[p]? with
  | none => .ret (.ok (decide (v = value.length) && decide (p = pattern.length)))   -- lines 37, 87
  | some c =>
    if c = STAR then                                                              -- line 38
      match pattern[p + 1]? with
      | none => .ret (.ok true)                                                   -- lines 40-42
      | some nc =>                                                                -- line 45
        if nc = STAR then .cont v (p + 1)                                         -- lines 48-51
        else if value.length < v then .ret .panic                                 -- line 54, slice bounds
        else match indexByte nc (value.drop v) with                               -- line 54
          | none => .ret (.ok false)                                              -- lines 57-59
          | some k => .cont (v + k) p                                             -- line 62
    else match value[v]? with
      | none => .ret (.ok false)                                                  -- lines 63, 82
      | some d =>
        if c = d ∨ c = COLON then                                                 -- line 63
          if c = COLON then .cont (skipTo value (v + 1)) (skipTo pattern (p + 1)) -- lines 65-80
          else .cont (v + 1) (p + 1)                                              -- lines 65-66
        else .ret (.ok false)                                                     -- line 82

/-- Run at most `n` iterations from indices `v`, `p`; `none` means: still running. -/
def mrun (value pattern : Str) : Nat → Nat → Nat → Option (Out Bool)
  | 0, _, _ => none
  | n + 1, v, p =>
    match mstep value pattern v p with
    | .ret r => some r
    | .cont v' p' => mrun value pattern n v' p'

/-- `utils.MatchResource(value, pattern)` (utils/str.go:33-88).  The number of iterations is
cut at `len(pattern) + 1`; that this cut never changes the result (the loop then runs for
ever) is theorem `matchResource_run` in `Verif/Props/Match.lean`. -/
def matchResource (value pattern : Str) : Out Bool :=
  match mrun value pattern (pattern.length + 1) 0 0 with
  | some r => r
  | none => .diverge

end Verif
