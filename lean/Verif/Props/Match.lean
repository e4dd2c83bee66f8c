import Verif.Lemmas.Match

/-!
# C01-C06: the permission pattern matcher `utils.MatchResource`
-/

namespace Verif
open Spec

/-- The cut-off in `matchResource` is exact: the loop started at (0,0) returns `r` after some
number of iterations iff `matchResource` is `r` (and not `diverge`). -/
theorem matchResource_run (value pattern : Str) (r : Out Bool) (hr : r ≠ .diverge) :
    matchResource value pattern = r ↔ ∃ n, mrun value pattern n 0 0 = some r := by
  have key : ∀ n, pattern.length < n →
      mrun value pattern n 0 0 = asRun (matchL pattern value) := fun n hn => by
    have := mrun_eq value pattern n 0 0 (by omega) (by omega) (by omega)
    simpa using this
  have mono : ∀ n v p r, mrun value pattern n v p = some r → mrun value pattern (n + 1) v p = some r := by
    intro n
    induction n with
    | zero => intro v p r h; simp [mrun] at h
    | succ n ih =>
      intro v p r h
      rw [mrun] at h ⊢
      cases hs : mstep value pattern v p with
      | ret _ => simpa [hs] using h
      | cont v' p' => rw [hs] at h; exact ih _ _ _ h
  have mono' : ∀ k n r, mrun value pattern n 0 0 = some r → mrun value pattern (n + k) 0 0 = some r := by
    intro k; induction k with
    | zero => intro n r h; exact h
    | succ k ih => intro n r h; exact mono _ _ _ _ (ih n r h)
  rw [matchResource_eq_matchL]
  constructor
  · intro h
    refine ⟨pattern.length + 1, ?_⟩
    rw [key _ (by omega), h]
    cases r <;> simp_all [asRun]
  · rintro ⟨n, hn⟩
    have := mono' (pattern.length + 1) n r hn
    rw [key _ (by omega)] at this
    cases h : matchL pattern value <;> simp_all [asRun]

/-- It diverges iff the loop never returns. -/
theorem matchResource_diverge_run (value pattern : Str) :
    matchResource value pattern = .diverge ↔ ∀ n, mrun value pattern n 0 0 = none := by
  constructor
  · intro h n
    cases hn : mrun value pattern n 0 0 with
    | none => rfl
    | some r =>
      by_cases hr : r = .diverge
      · subst hr
        exfalso
        have : ∀ n v p, mrun value pattern n v p ≠ some .diverge := by
          intro n; induction n with
          | zero => intros; simp [mrun]
          | succ n ih =>
            intro v p; rw [mrun]
            cases hs : mstep value pattern v p with
            | cont v' p' => exact ih v' p'
            | ret r =>
              simp only [mstep] at hs
              repeat' split at hs
              all_goals simp_all
              all_goals subst hs; simp
        exact this _ _ _ hn
      · have := (matchResource_run value pattern r hr).2 ⟨n, hn⟩
        rw [h] at this; exact absurd this.symm hr
  · intro h
    cases hr : matchResource value pattern with
    | diverge => rfl
    | _ =>
      obtain ⟨n, hn⟩ := (matchResource_run value pattern _ (by simp)).1 hr
      rw [h n] at hn; cases hn

/-- `MatchResource` answers `true` exactly on the language of the pattern - all patterns. -/
theorem matchResource_true_iff (value pattern : Str) :
    matchResource value pattern = .ok true ↔ Matches pattern value := by
  rw [matchResource_eq_matchL, matchL_true_iff]

/-- C03 (exact set of diverging inputs). -/
theorem C03_diverges_iff_partial (value pattern : Str) :
    matchResource value pattern = .diverge ↔ Hangs pattern value := by
  rw [matchResource_eq_matchL, matchL_diverge_iff]

/-- `MatchResource` never panics. -/
theorem matchResource_no_panic (value pattern : Str) : matchResource value pattern ≠ .panic := by
  rw [matchResource_eq_matchL]; exact matchL_ne_panic _ _

/-- `false` is the remaining case. -/
theorem matchResource_false_iff (value pattern : Str) :
    matchResource value pattern = .ok false ↔ ¬ Matches pattern value ∧ ¬ Hangs pattern value := by
  rw [← matchResource_true_iff, ← C03_diverges_iff_partial]
  have := matchResource_no_panic value pattern
  cases h : matchResource value pattern with
  | ok b => cases b <;> simp
  | panic => exact absurd h this
  | diverge => simp

theorem not_hangs_of_no_star {ps vs : Str} (h : 42 ∉ ps) : ¬ Hangs ps vs := by
  intro hh
  induction hh with
  | star => simp at h
  | lit _ _ _ ih => exact ih (fun x => h (by simp [x]))
  | param _ _ _ _ _ ih => exact ih (fun x => h (by simp [x]))

/-- Without '*' (or with stars only at the end) the matcher returns. -/
theorem matchResource_returns {pattern : Str} (h : 42 ∉ pattern) (value : Str) :
    ∃ b, matchResource value pattern = .ok b := by
  cases hr : matchResource value pattern with
  | ok b => exact ⟨b, rfl⟩
  | panic => exact absurd hr (matchResource_no_panic _ _)
  | diverge => exact absurd ((C03_diverges_iff_partial _ _).1 hr) (not_hangs_of_no_star h)

theorem matches_literal {ps vs : Str} (h1 : 42 ∉ ps) (h2 : 58 ∉ ps) : Matches ps vs ↔ vs = ps := by
  constructor
  · intro h
    induction h with
    | nil => rfl
    | lit _ _ _ ih =>
      rw [ih (fun x => h1 (by simp [x])) (fun x => h2 (by simp [x]))]
    | param => simp at h2
    | star => simp at h1
  · rintro rfl
    induction vs with
    | nil => exact .nil
    | cons c t ih =>
      simp only [List.mem_cons, not_or] at h1 h2
      exact .lit (fun e => h2.1 e.symm) (fun e => h1.1 e.symm) (ih h1.2 h2.2)

/-- C01: literal permissions match only themselves. -/
theorem C01_literal (value pattern : Str) (h1 : 42 ∉ pattern) (h2 : 58 ∉ pattern) :
    matchResource value pattern = .ok (decide (value = pattern)) := by
  obtain ⟨b, hb⟩ := matchResource_returns h1 value
  rw [hb]
  have := matchResource_true_iff value pattern
  rw [hb, matches_literal h1 h2] at this
  cases b <;> simp_all

example : matchResource (str "user read") (str "user read") = .ok true ∧
    matchResource (str "user reads") (str "user read") = .ok false ∧
    (42 ∉ str "user read" ∧ 58 ∉ str "user read") := by decide

/-- C02: the parameter language, exactly; no divergence without '*'. -/
theorem C02_param_language (value pattern : Str) (h : 42 ∉ pattern) :
    (∃ b, matchResource value pattern = .ok b) ∧
    (matchResource value pattern = .ok true ↔ Matches pattern value) :=
  ⟨matchResource_returns h value, matchResource_true_iff value pattern⟩

example : matchResource (str "user/17/x GET") (str "user/:id/x GET") = .ok true ∧
    matchResource (str "user/1/7/x GET") (str "user/:id/x GET") = .ok false ∧
    42 ∉ str "user/:id/x GET" := by decide

/-- C03 is false: there are inputs on which the loop runs for ever. -/
theorem C03_counterexample :
    ∀ n, mrun (str "/a GET") (str "* GET") n 0 0 = none :=
  (matchResource_diverge_run _ _).1 (by decide)

/-- C03, the positive part: patterns whose stars are all at the end return on every value. -/
theorem C03_terminates_partial (pre stars value : Str) (h1 : 42 ∉ pre) (h2 : ∀ s ∈ stars, s = 42) :
    ∃ b, matchResource value (pre ++ stars) = .ok b := by
  cases hr : matchResource value (pre ++ stars) with
  | ok b => exact ⟨b, rfl⟩
  | panic => exact absurd hr (matchResource_no_panic _ _)
  | diverge =>
    exfalso
    have hh := (C03_diverges_iff_partial _ _).1 hr
    suffices H : ∀ ps vs, Hangs ps vs → ∀ pre stars, ps = pre ++ stars → 42 ∉ pre →
        (∀ s ∈ stars, s = 42) → False from H _ _ hh _ _ rfl h1 h2
    intro ps vs hh
    induction hh with
    | @star st c ps vs g1 g2 g3 =>
      intro pre stars e h1 h2
      cases pre with
      | nil =>
        refine g2 (h2 c ?_)
        rw [List.nil_append] at e
        rw [← e]; simp
      | cons a t =>
        simp only [List.cons_append, List.cons.injEq] at e
        exact h1 (by simp [← e.1])
    | @lit c ps vs g1 g2 _ ih =>
      intro pre stars e h1 h2
      cases pre with
      | nil =>
        rw [List.nil_append] at e
        exact g2 (h2 c (by rw [← e]; simp))
      | cons a t =>
        simp only [List.cons_append, List.cons.injEq] at e
        exact ih t stars e.2 (fun x => h1 (by simp [x])) h2
    | @param name ps x seg vs g1 g2 g3 g4 _ ih =>
      intro pre stars e h1 h2
      have key : ∃ pre', ps = pre' ++ stars.drop (stars.length - ps.length) ∧ 42 ∉ pre' := by
        have hs : ps <:+ pre ++ stars := ⟨58 :: name, by simpa using e⟩
        by_cases hl : ps.length ≤ stars.length
        · refine ⟨[], ?_, by simp⟩
          have : ps <:+ stars := List.suffix_of_suffix_length_le hs (List.suffix_append _ _) hl
          rw [List.nil_append]
          exact (List.suffix_iff_eq_drop.1 this)
        · have h0 : stars.length - ps.length = 0 := by omega
          rw [h0, List.drop_zero]
          have h3 : stars <:+ ps :=
            List.suffix_of_suffix_length_le (List.suffix_append _ _) hs (by omega)
          obtain ⟨pre', rfl⟩ := h3
          refine ⟨pre', rfl, ?_⟩
          rw [← List.append_assoc, ← List.cons_append, List.append_cancel_right_eq] at e
          rw [← e] at h1
          simp at h1
          exact h1.2
      obtain ⟨pre', e', h'⟩ := key
      exact ih pre' _ e' h' (fun s hs => h2 s (List.mem_of_mem_drop hs))

example : matchResource (str "doc/7/x read") (str "doc/:id/**") = .ok true ∧
    42 ∉ str "doc/:id/" ∧ ∀ s ∈ str "**", s = 42 := by decide

/-- C04: literal prefix followed by stars is prefix matching. -/
theorem C04_trailing_star (pre value : Str) (n : Nat) (h1 : 42 ∉ pre) (h2 : 58 ∉ pre) :
    matchResource value (pre ++ List.replicate (n + 1) 42) = .ok (decide (pre <+: value)) := by
  have hst : ∀ s ∈ List.replicate (n + 1) (42 : UInt8), s = 42 := fun s hs =>
    List.eq_of_mem_replicate hs
  obtain ⟨b, hb⟩ := C03_terminates_partial pre (List.replicate (n + 1) 42) value h1 hst
  have key : Matches (pre ++ List.replicate (n + 1) 42) value ↔ pre <+: value := by
    clear hb
    induction pre generalizing value with
    | nil =>
      simp only [List.nil_append, List.nil_prefix, iff_true]
      rw [List.replicate_succ]
      exact .star (fun c hc => List.eq_of_mem_replicate hc)
    | cons c t ih =>
      simp only [List.mem_cons, not_or] at h1 h2
      constructor
      · intro h
        rw [List.cons_append] at h
        generalize hq : c :: (t ++ List.replicate (n + 1) 42) = q at h
        cases h with
        | nil => cases hq
        | lit _ _ h =>
          obtain ⟨rfl, rfl⟩ := List.cons.inj hq
          exact (List.cons_prefix_cons).2 ⟨rfl, (ih _ h1.2 h2.2).1 h⟩
        | param => exact absurd (List.cons.inj hq).1.symm h2.1
        | star => exact absurd (List.cons.inj hq).1.symm h1.1
      · intro h
        cases value with
        | nil => simp at h
        | cons d v =>
          obtain ⟨rfl, h'⟩ := List.cons_prefix_cons.1 h
          exact .lit (fun e => h2.1 e.symm) (fun e => h1.1 e.symm) ((ih _ h1.2 h2.2).2 h')
  rw [hb]
  have := matchResource_true_iff value (pre ++ List.replicate (n + 1) 42)
  rw [hb, key] at this
  cases b <;> simp_all

example : matchResource (str "doc/1 read") (str "doc/*") = .ok true ∧
    matchResource (str "do") (str "doc/*") = .ok false ∧
    str "doc/*" = str "doc/" ++ List.replicate (0 + 1) 42 := by decide

/-- A literal tail that starts right after a '/' (or at the start) must be the tail of the value. -/
theorem matches_tail {ps vs : Str} (h : Matches ps vs) : ∀ (a l : Str), ps = a ++ l →
    (a = [] ∨ a.getLast? = some 47) → 42 ∉ ps → 58 ∉ l → ∃ v, vs = v ++ l := by
  induction h with
  | nil => intro a l e _ _ _; simp at e; exact ⟨[], by simp [e]⟩
  | @lit c ps vs g1 g2 hm ih =>
    intro a l e ha h1 h2
    cases a with
    | nil =>
      refine ⟨[], ?_⟩
      rw [List.nil_append] at e
      subst e
      rw [matches_literal (fun x => h1 (by simp [x])) (fun x => h2 (by simp [x]))] at hm
      rw [hm]; rfl
    | cons b t =>
      simp only [List.cons_append, List.cons.injEq] at e
      obtain ⟨v, hv⟩ := ih t l e.2 (by
        rcases ha with ha | ha
        · cases ha
        · cases t with
          | nil => left; rfl
          | cons => right; simpa [List.getLast?_cons] using ha) (fun x => h1 (by simp [x])) h2
      exact ⟨c :: v, by rw [hv]; rfl⟩
  | @param name ps x seg vs g1 g2 g3 hm ih =>
    intro a l e ha h1 h2
    cases a with
    | nil => rw [List.nil_append] at e; subst e; simp at h2
    | cons b t =>
      simp only [List.cons_append, List.cons.injEq] at e
      obtain ⟨rfl, e⟩ := e
      have ht : t.getLast? = some 47 := by
        rcases ha with ha | ha
        · cases ha
        · cases t with
          | nil => simp at ha
          | cons => simpa [List.getLast?_cons] using ha
      rcases List.append_eq_append_iff.1 e with ⟨u, rfl, rfl⟩ | ⟨u, rfl, rfl⟩
      · -- t = name ++ u, ps = u ++ l
        obtain ⟨v, rfl⟩ := ih u l rfl (by
          cases u with
          | nil => left; rfl
          | cons => right; simpa [List.getLast?_append, List.getLast?_cons] using ht)
          (fun x => h1 (by simp at x; simp [x])) h2
        exact ⟨x :: (seg ++ v), by simp⟩
      · -- name = t ++ u : contains the '/'
        exfalso
        exact g1 (by simp [List.mem_of_getLast? ht])
  | star => intro a l e _ h1 _; simp at h1

theorem sep_unique {a b c d : Str} {x : UInt8} (h : a ++ x :: b = c ++ x :: d) (hb : x ∉ b) (hd : x ∉ d) :
    b = d := by
  rcases List.append_eq_append_iff.1 h with ⟨u, rfl, h⟩ | ⟨u, rfl, h⟩
  · cases u with
    | nil => simpa using h
    | cons y u => simp at h; exact absurd (by simp [h.2]) hb
  · cases u with
    | nil => simpa [eq_comm] using h
    | cons y u => simp at h; exact absurd (by simp [← h.2]) hd

/-- C05 is false: a final ':param' swallows the action. -/
theorem C05_counterexample :
    matchResource (str "user/1 delete") (str "user/:id create") = .ok true := by decide

/-- C05, the positive part: when the resource is `a ++ b` with no ':' in the part `b` after the last
'/' (so every parameter is followed by a '/'), and no '*' is present, the action must agree. Missing
compared with the full claim: patterns ending in a parameter or containing '*'. -/
theorem C05_action_partial (a b act res' act' : Str)
    (h1 : 42 ∉ a ++ b ++ act) (ha : a = [] ∨ a.getLast? = some 47) (hb : 58 ∉ b)
    (hact : 58 ∉ act) (hs : 32 ∉ act) (hs' : 32 ∉ act')
    (h : matchResource (res' ++ 32 :: act') ((a ++ b) ++ 32 :: act) = .ok true) : act' = act := by
  rw [matchResource_true_iff] at h
  obtain ⟨v, hv⟩ := matches_tail h a (b ++ 32 :: act) (by simp) ha (by simp at h1 ⊢; exact h1)
    (by simp [hb, hact])
  rw [← List.append_assoc] at hv
  exact sep_unique hv hs' hs

example : matchResource (str "user/1/edit" ++ 32 :: str "POST")
    ((str "user/:id/" ++ str "edit") ++ 32 :: str "POST") = .ok true := by decide

/-- C06: the number of path segments. `hcol`: every ':' follows a '/' or starts the pattern;
`hne`, `hh`: the value has no empty segment at the places a parameter can reach. -/
theorem C06_segments (value pattern : Str) (hstar : 42 ∉ pattern)
    (hcol : ∀ a b, pattern = a ++ 58 :: b → a = [] ∨ a.getLast? = some 47)
    (hne : ¬ [47, 47] <:+: value) (hh : pattern.head? = some 58 → value.head? ≠ some 47)
    (h : matchResource value pattern = .ok true) :
    (segments value).length = (segments pattern).length := by
  have len : ∀ s : Str, (segments s).length = s.count 47 + 1 := by
    intro s
    induction s with
    | nil => rfl
    | cons c t ih =>
      rw [segments, List.count_cons]
      by_cases hc : c = 47
      · simp [hc, ih]
      · cases hs : segments t with
        | nil => simp [hs] at ih
        | cons => rw [hs] at ih; simpa [hc] using ih
  rw [len, len, Nat.add_right_cancel_iff]
  rw [matchResource_true_iff] at h
  induction h with
  | nil => rfl
  | @lit c ps vs g1 g2 hm ih =>
    rw [List.count_cons, List.count_cons, ih (fun x => hstar (by simp [x])) ?_ ?_ ?_]
    · intro a b e
      have := hcol (c :: a) b (by rw [e]; rfl)
      cases a with
      | nil => left; rfl
      | cons => right; simpa [List.getLast?_cons] using this
    · intro hi; exact hne (hi.trans (List.suffix_cons c vs).isInfix)
    · intro hp hv
      cases ps with
      | nil => simp at hp
      | cons d ps =>
        simp at hp; subst hp
        have := hcol [c] ps rfl
        simp at this; subst this
        cases vs with
        | nil => simp at hv
        | cons e vs =>
          simp at hv; subst hv
          exact hne ⟨[], vs, by simp⟩
  | @param name ps x seg vs g1 g2 g3 hm ih =>
    have hx : x ≠ 47 := by simpa using hh rfl
    rw [List.count_cons_of_ne hx, List.count_cons_of_ne (by decide), List.count_append,
      List.count_append, List.count_eq_zero.2 g1, List.count_eq_zero.2 g3,
      ih (fun x => hstar (by simp [x])) ?_ ?_ ?_]
    · intro a b e
      have := hcol (58 :: name ++ a) b (by rw [e]; simp)
      cases a with
      | nil => left; rfl
      | cons => right; simpa [List.getLast?_append, List.getLast?_cons] using this
    · intro hi
      exact hne (hi.trans (⟨x :: seg, [], by simp⟩))
    · intro hp
      rcases g2 with rfl | g2
      · simp at hp
      · rw [g2] at hp; simp at hp
  | star => simp at hstar

/-- Without the no-empty-segment condition a parameter swallows a '/'. -/
theorem C06_counterexample :
    matchResource (str "a//b") (str "a/:x") = .ok true ∧
      (segments (str "a//b")).length ≠ (segments (str "a/:x")).length := by
  constructor <;> decide

/-- The hypotheses of `C06_segments` are met by an ordinary route. -/
example : (segments (str "a/17/c")).length = (segments (str "a/:x/c")).length := by
  refine C06_segments _ _ (by decide) ?_ (by decide) (by decide) (by decide)
  intro a b e
  have hp : str "a/:x/c" = [97, 47, 58, 120, 47, 99] := by decide
  rw [hp] at e
  match a, e with
  | [], e => simp at e
  | [_], e => simp at e
  | [_, _], e => simp at e; simp [← e.2.1]
  | [_, _, _], e => simp at e
  | [_, _, _, _], e => simp at e
  | [_, _, _, _, _], e => simp at e
  | _ :: _ :: _ :: _ :: _ :: _ :: _, e => simp at e

end Verif
