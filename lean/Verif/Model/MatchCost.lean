import Verif.Model.Match

/-!
# How many bytes `utils.MatchResource` reads (/repo/utils/str.go:33-88)

Every evaluation of `pattern[...]`, `value[...]` and every byte `strings.IndexByte` looks at counts; the cases are those of
`mstep`.  `len` is free.
-/

namespace Verif

/-- Bytes read by the inner loop started at index `i` (utils/str.go:70-73 and 75-77): those skipped and the '/' it stops at. -/
def skipReads (s : Str) (i : Nat) : Nat := (skipTo s i - i) + if skipTo s i < s.length then 1 else 0

/-- Bytes `strings.IndexByte` looks at (utils/str.go:54). -/
def indexReads (c : UInt8) (s : Str) : Nat :=
  match indexByte c s with
  | none => s.length
  | some k => k + 1

/-- Bytes read by one iteration of the outer loop (utils/str.go:37-84): `pattern[pIndex]` at line 38; again at line 63, once or
twice, with `value[vIndex]`; and `pattern[pIndex-1]` at line 68. -/
def mreads (value pattern : Str) (v p : Nat) : Nat :=
  match pattern[p]? with
  | none => 0
  | some c =>
    if c = STAR then                                                   -- line 38
      match pattern[p + 1]? with
      | none => 1
      | some nc =>                                                     -- line 45
        if nc = STAR then 2
        else 2 + indexReads nc (value.drop v)                          -- line 54
    else match value[v]? with
      | none => 1                                                      -- line 63, length test
      | some d =>
        if c = d then                                                  -- lines 38, 63, 68
          4 + if c = COLON then skipReads value (v + 1) + skipReads pattern (p + 1) else 0
        else if c = COLON then                                         -- lines 38, 63 (twice), 68
          5 + (skipReads value (v + 1) + skipReads pattern (p + 1))
        else 4                                                         -- lines 38, 63 (twice), 82

/-- Bytes read by the first `n` iterations from indices `v`, `p`. -/
def mtotal (value pattern : Str) : Nat → Nat → Nat → Nat
  | 0, _, _ => 0
  | n + 1, v, p =>
    mreads value pattern v p +
      match mstep value pattern v p with
      | .ret _ => 0
      | .cont v' p' => mtotal value pattern n v' p'

end Verif
