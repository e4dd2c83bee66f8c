import Verif.Props.Match

/-!
C03 and C05, exactly: for which patterns `MatchResource` can loop for ever, and for which permissions
it can accept a request with another action.
-/

namespace Verif
namespace Spec

/-- The pattern without the names of its parameters: of `:name` only the ':' is kept. The second
argument tells whether the bytes belong to a name. -/
def bare : Str → Bool → Str
  | [], _ => []
  | c :: t, true => if c = 47 then 47 :: bare t false else bare t true
  | c :: t, false => c :: bare t (c = 58)

example : bare (str "a/:id*/x*") false = str "a/:/x*" := by decide +kernel

/-- A '*' outside the parameter names that something other than '*' follows. -/
def InnerStar (p : Str) : Prop := ∃ a c b, bare p false = a ++ 42 :: c :: b ∧ c ≠ 42

end Spec
open Spec

theorem bare_name : ∀ (name ps : Str), 47 ∉ name → (ps = [] ∨ ps.head? = some 47) →
    bare (name ++ ps) true = bare ps false := by
  intro name
  induction name with
  | nil =>
    intro ps _ h
    rcases h with rfl | h
    · rfl
    · cases ps with
      | nil => rfl
      | cons c t => cases h; simp [bare]
  | cons c t ih =>
    intro ps h1 h2
    have : c ≠ 47 := by rintro rfl; exact h1 List.mem_cons_self
    simp only [List.cons_append, bare, if_neg this]
    exact ih ps (fun h => h1 (List.mem_cons_of_mem _ h)) h2

/-- A parameter and what follows. -/
theorem name_split (t : Str) : ∃ name ps, t = name ++ ps ∧ 47 ∉ name ∧ (ps = [] ∨ ps.head? = some 47) := by
  induction t with
  | nil => exact ⟨[], [], rfl, nofun, Or.inl rfl⟩
  | cons c t ih =>
    by_cases hc : c = 47
    · subst hc; exact ⟨[], 47 :: t, rfl, nofun, Or.inr rfl⟩
    · obtain ⟨name, ps, rfl, h1, h2⟩ := ih
      exact ⟨c :: name, ps, rfl, by simp only [List.mem_cons, not_or]; exact ⟨fun h => hc h.symm, h1⟩, h2⟩

theorem bare_stars {p : Str} (h : ∀ c ∈ p, c = 42) : bare p false = p := by
  induction p with
  | nil => rfl
  | cons c t ih =>
    have : c = 42 := h c List.mem_cons_self
    subst this
    show 42 :: bare t (decide ((42 : UInt8) = 58)) = _
    rw [show decide ((42 : UInt8) = 58) = false by decide, ih fun c hc => h c (List.mem_cons_of_mem _ hc)]

theorem bare_lit {c : UInt8} {t : Str} (h : c ≠ 58) : bare (c :: t) false = c :: bare t false := by
  simp [bare, h]

theorem bare_param {name ps : Str} (h1 : 47 ∉ name) (h2 : ps = [] ∨ ps.head? = some 47) :
    bare (58 :: (name ++ ps)) false = 58 :: bare ps false := by
  show 58 :: bare (name ++ ps) (decide ((58 : UInt8) = 58)) = _
  rw [show decide ((58 : UInt8) = 58) = true by decide, bare_name name ps h1 h2]

theorem inner_cons {c : UInt8} {t u : Str} (h : bare (c :: t) false = c :: bare u false) (h' : InnerStar u) :
    InnerStar (c :: t) := by
  obtain ⟨a, d, b, e, hd⟩ := h'
  exact ⟨c :: a, d, b, by rw [h, e]; rfl, hd⟩

theorem hangs_inner {p v : Str} (h : Hangs p v) : InnerStar p := by
  induction h with
  | @star stars c ps vs h1 h2 h3 =>
    have key : ∀ (stars : Str), (∀ s ∈ stars, s = 42) → ∃ a, bare (stars ++ c :: ps) false = stars ++ c :: a := by
      intro stars h1
      induction stars with
      | nil => exact ⟨bare ps (c = 58), rfl⟩
      | cons s t ih =>
        have : s = 42 := h1 s List.mem_cons_self
        subst this
        obtain ⟨a, ha⟩ := ih fun s hs => h1 s (List.mem_cons_of_mem _ hs)
        exact ⟨a, by rw [List.cons_append, bare_lit (by decide), ha]; rfl⟩
    obtain ⟨a, ha⟩ := key stars h1
    have : ∀ (stars : Str), (∀ s ∈ stars, s = 42) → ∃ x d y, 42 :: (stars ++ c :: a) = x ++ 42 :: d :: y ∧ d ≠ 42 := by
      intro stars h1
      induction stars with
      | nil => exact ⟨[], c, a, rfl, h2⟩
      | cons s t ih =>
        have : s = 42 := h1 s List.mem_cons_self
        subst this
        obtain ⟨x, d, y, e, hd⟩ := ih fun s hs => h1 s (List.mem_cons_of_mem _ hs)
        exact ⟨42 :: x, d, y, by rw [List.cons_append, e]; rfl, hd⟩
    obtain ⟨x, d, y, e, hd⟩ := this stars h1
    exact ⟨x, d, y, by rw [bare_lit (by decide), ha, e], hd⟩
  | lit h1 h2 _ ih => exact inner_cons (bare_lit h1) ih
  | param h1 h2 _ _ _ ih => exact inner_cons (bare_param h1 h2) ih

theorem inner_hangs : ∀ (n : Nat) (p : Str), p.length ≤ n → InnerStar p → ∃ v, Hangs p v := by
  intro n
  induction n with
  | zero =>
    intro p hp h
    have : p = [] := List.length_eq_zero_iff.1 (by omega)
    subst this
    obtain ⟨a, c, b, e, _⟩ := h
    cases a <;> cases e
  | succ n ih =>
    intro p hp h
    cases p with
    | nil => obtain ⟨a, c, b, e, _⟩ := h; cases a <;> cases e
    | cons c t =>
      by_cases hs : c = 42
      · subst hs
        -- the bytes after the stars
        by_cases ht : ∀ d ∈ t, d = 42
        · obtain ⟨a, d, b, e, hd⟩ := h
          rw [bare_stars (fun x hx => (List.mem_cons.1 hx).elim id (ht x))] at e
          have : d ∈ 42 :: t := by rw [e]; simp
          rcases List.mem_cons.1 this with h | h
          · exact absurd h hd
          · exact absurd (ht d h) hd
        · have : ∃ stars d ps, t = stars ++ d :: ps ∧ (∀ s ∈ stars, s = 42) ∧ d ≠ 42 := by
            clear ih hp h
            induction t with
            | nil => exact absurd nofun ht
            | cons x t ih =>
              by_cases hx : x = 42
              · obtain ⟨stars, d, ps, rfl, h1, h2⟩ := ih fun h => ht fun d hd => by
                  rcases List.mem_cons.1 hd with rfl | hd
                  · exact hx
                  · exact h d hd
                exact ⟨x :: stars, d, ps, rfl, fun s hs => by
                  rcases List.mem_cons.1 hs with rfl | hs
                  · exact hx
                  · exact h1 s hs, h2⟩
              · exact ⟨[], x, t, rfl, nofun, hx⟩
          obtain ⟨stars, d, ps, rfl, h1, h2⟩ := this
          exact ⟨[d], .star h1 h2 List.mem_cons_self⟩
      · have tail : ∀ {u : Str}, bare (c :: t) false = c :: bare u false → InnerStar u := by
          intro u hu
          obtain ⟨a, d, b, e, hd⟩ := h
          rw [hu] at e
          cases a with
          | nil => exact absurd (List.cons.inj e).1 hs
          | cons x a => exact ⟨a, d, b, (List.cons.inj e).2, hd⟩
        by_cases hc : c = 58
        · subst hc
          obtain ⟨name, ps, rfl, h1, h2⟩ := name_split t
          obtain ⟨v, hv⟩ := ih ps (by simp at hp; omega) (tail (bare_param h1 h2))
          -- the segment ends where the rest of the value begins with '/'
          have hne : ps ≠ [] := by rintro rfl; cases hv
          have hh := h2.resolve_left hne
          obtain ⟨ps', rfl⟩ : ∃ ps', ps = 47 :: ps' := by
            cases ps with
            | nil => exact absurd rfl hne
            | cons y ps' => cases hh; exact ⟨ps', rfl⟩
          have hv47 : v.head? = some 47 := by cases hv; rfl
          exact ⟨58 :: ([] ++ v), .param h1 (Or.inr rfl) nofun (Or.inr hv47) hv⟩
        · obtain ⟨v, hv⟩ := ih t (by simp at hp; omega) (tail (bare_lit hc))
          exact ⟨c :: v, .lit hc hs hv⟩

/-- C03 as intended. -/
def C03_full : Prop := ∀ value pattern : Str, ∃ b, matchResource value pattern = .ok b

theorem C03_full_false : ¬ C03_full := by
  intro h
  obtain ⟨b, hb⟩ := h (str "/a GET") (str "* GET")
  have := (matchResource_diverge_run _ _).2 C03_counterexample
  rw [hb] at this
  cases this

/-- C03, by pattern: there is a value on which the pattern loops for ever exactly if it has a '*',
outside the names of parameters, that something other than '*' follows. -/
theorem C03_pattern (p : Str) : (∃ v, matchResource v p = .diverge) ↔ InnerStar p := by
  constructor
  · rintro ⟨v, hv⟩
    exact hangs_inner ((C03_diverges_iff_partial v p).1 hv)
  · intro h
    obtain ⟨v, hv⟩ := inner_hangs p.length p (Nat.le_refl _) h
    exact ⟨v, (C03_diverges_iff_partial v p).2 hv⟩

/-- "doc/*" loops on nothing, but the permission "doc/* GET" does; the '*' of a name does no harm. -/
example : ¬ InnerStar (str "doc/*") ∧ InnerStar (str "doc/* GET") ∧ ¬ InnerStar (str "doc/:x*y/z GET") := by
  refine ⟨?_, ⟨str "doc/", 32, str "GET", by decide +kernel, by decide⟩, ?_⟩
  · rw [← C03_pattern]
    rintro ⟨v, hv⟩
    obtain ⟨b, hb⟩ := C03_terminates_partial (str "doc/") (str "*") v (by decide +kernel) (by decide +kernel)
    rw [show str "doc/*" = str "doc/" ++ str "*" by decide +kernel, hb] at hv
    cases hv
  · rintro ⟨a, c, b, e, _⟩
    have h : (42 : UInt8) ∈ bare (str "doc/:x*y/z GET") false := by rw [e]; simp
    exact absurd h (by decide +kernel)

/-- The last '/'-separated segment has a parameter. -/
def Spec.LastParam (res : Str) : Prop := ∃ a b, res = a ++ b ∧ (a = [] ∨ a.getLast? = some 47) ∧ 47 ∉ b ∧ 58 ∈ b

theorem last_split (res : Str) : ∃ a b : Str, res = a ++ b ∧ (a = [] ∨ a.getLast? = some 47) ∧ 47 ∉ b := by
  induction res with
  | nil => exact ⟨[], [], rfl, Or.inl rfl, nofun⟩
  | cons c t ih =>
    obtain ⟨a, b, rfl, h1, h2⟩ := ih
    cases a with
    | nil =>
      by_cases hc : c = 47
      · subst hc; exact ⟨[47], b, rfl, Or.inr rfl, h2⟩
      · exact ⟨[], c :: b, rfl, Or.inl rfl, by simp only [List.mem_cons, not_or]; exact ⟨fun h => hc h.symm, h2⟩⟩
    | cons x a =>
      refine ⟨c :: x :: a, b, rfl, Or.inr ?_, h2⟩
      rcases h1 with h1 | h1
      · cases h1
      · simpa [List.getLast?_cons] using h1

/-- Without parameters, and with a byte other than '*' after every '*', only the text itself matches. -/
theorem matches_plain {act : Str} (h1 : 42 ∉ act) : ∀ {b vs : Str}, 58 ∉ b → 58 ∉ act → Matches (b ++ 32 :: act) vs →
    vs = b ++ 32 :: act := by
  intro b
  induction b with
  | nil =>
    intro vs _ h3 h
    exact (matches_literal (by simp [h1]) (by simp [h3])).1 h
  | cons c b ih =>
    intro vs h2 h3 h
    generalize hq : c :: b ++ 32 :: act = q at h
    cases h with
    | nil => cases hq
    | lit _ _ h =>
      obtain ⟨rfl, rfl⟩ := List.cons.inj hq
      rw [ih (fun hb => h2 (List.mem_cons_of_mem _ hb)) h3 h]; rfl
    | param => exact absurd (by rw [(List.cons.inj hq).1]; exact List.mem_cons_self) h2
    | star hs =>
      have : (32 : UInt8) = 42 := hs 32 (by rw [← (List.cons.inj hq).2]; simp)
      exact absurd this (by decide)

/-- As `matches_tail`, for patterns that may have a '*'. -/
theorem matches_tail' {act : Str} (h1 : 42 ∉ act) {ps vs : Str} (h : Matches ps vs) : ∀ (a b : Str), ps = a ++ (b ++ 32 :: act) →
    (a = [] ∨ a.getLast? = some 47) → 58 ∉ b → 58 ∉ act → ∃ v, vs = v ++ (b ++ 32 :: act) := by
  induction h with
  | nil => intro a b e _ _ _; simp at e
  | @lit c ps vs g1 g2 hm ih =>
    intro a b e ha h2 h3
    cases a with
    | nil =>
      have : Matches (b ++ 32 :: act) (c :: vs) := by rw [← List.nil_append (b ++ 32 :: act), ← e]; exact .lit g1 g2 hm
      exact ⟨[], matches_plain h1 h2 h3 this⟩
    | cons y t =>
      simp only [List.cons_append, List.cons.injEq] at e
      obtain ⟨v, hv⟩ := ih t b e.2 (by
        rcases ha with ha | ha
        · cases ha
        · cases t with
          | nil => left; rfl
          | cons => right; simpa [List.getLast?_cons] using ha) h2 h3
      exact ⟨c :: v, by rw [hv]; rfl⟩
  | @param name ps x seg vs g1 g2 g3 hm ih =>
    intro a b e ha h2 h3
    cases a with
    | nil =>
      have : (58 : UInt8) ∈ b ++ 32 :: act := by rw [List.nil_append] at e; rw [← e]; exact List.mem_cons_self
      simp [h2, h3] at this
    | cons y t =>
      simp only [List.cons_append, List.cons.injEq] at e
      obtain ⟨rfl, e⟩ := e
      have ht : t.getLast? = some 47 := by
        rcases ha with ha | ha
        · cases ha
        · cases t with
          | nil => simp at ha
          | cons => simpa [List.getLast?_cons] using ha
      rcases List.append_eq_append_iff.1 e with ⟨u, rfl, rfl⟩ | ⟨u, rfl, _⟩
      · obtain ⟨v, rfl⟩ := ih u b rfl (by
          cases u with
          | nil => left; rfl
          | cons => right; simpa [List.getLast?_append, List.getLast?_cons] using ht) h2 h3
        exact ⟨x :: (seg ++ v), by simp⟩
      · exfalso
        exact g1 (by simp [List.mem_of_getLast? ht])
  | star hs =>
    intro a b e _ _ _
    have : (32 : UInt8) = 42 := by
      have h32 : (32 : UInt8) ∈ a ++ (b ++ 32 :: act) := by simp
      rw [← e] at h32
      rcases List.mem_cons.1 h32 with h | h
      · exact h
      · exact hs 32 h
    exact absurd this (by decide)

/-- What matches up to the last segment can be followed by anything that matches. -/
theorem matches_front {ps vs : Str} (h : Matches ps vs) : ∀ (a b c : Str), ps = a ++ (b ++ 58 :: c) →
    (a = [] ∨ a.getLast? = some 47) → 58 ∉ b → ∃ u, ∀ {R w : Str}, Matches R w → Matches (a ++ (b ++ R)) (u ++ w) := by
  induction h with
  | nil => intro a b c e _ _; simp at e
  | @lit d ps vs g1 g2 hm ih =>
    intro a b c e ha hb
    cases a with
    | nil =>
      cases b with
      | nil => simp only [List.nil_append, List.cons.injEq] at e; exact absurd e.1 g1
      | cons y b =>
        simp only [List.nil_append, List.cons_append, List.cons.injEq] at e
        obtain ⟨rfl, e⟩ := e
        obtain ⟨u, hu⟩ := ih [] b c e (Or.inl rfl) (fun h => hb (List.mem_cons_of_mem _ h))
        exact ⟨d :: u, fun h => .lit g1 g2 (hu h)⟩
    | cons y t =>
      simp only [List.cons_append, List.cons.injEq] at e
      obtain ⟨rfl, e⟩ := e
      obtain ⟨u, hu⟩ := ih t b c e (by
        rcases ha with ha | ha
        · cases ha
        · cases t with
          | nil => left; rfl
          | cons => right; simpa [List.getLast?_cons] using ha) hb
      exact ⟨d :: u, fun h => .lit g1 g2 (hu h)⟩
  | @param name ps x seg vs g1 g2 g3 hm ih =>
    intro a b c e ha hb
    cases a with
    | nil =>
      cases b with
      | nil => exact ⟨[], fun h => h⟩
      | cons y b =>
        simp only [List.nil_append, List.cons_append, List.cons.injEq] at e
        exact absurd (by rw [e.1]; exact List.mem_cons_self) hb
    | cons y t =>
      simp only [List.cons_append, List.cons.injEq] at e
      obtain ⟨rfl, e⟩ := e
      have ht : t.getLast? = some 47 := by
        rcases ha with ha | ha
        · cases ha
        · cases t with
          | nil => simp at ha
          | cons => simpa [List.getLast?_cons] using ha
      rcases List.append_eq_append_iff.1 e with ⟨u, rfl, rfl⟩ | ⟨u, rfl, _⟩
      · cases u with
        | nil =>
          rw [List.append_nil] at ht
          exact absurd (List.mem_of_getLast? ht) g1
        | cons z u =>
          obtain ⟨w, hw⟩ := ih (z :: u) b c rfl (Or.inr (by simpa [List.getLast?_append, List.getLast?_cons] using ht)) hb
          refine ⟨x :: (seg ++ w), fun {R w'} h => ?_⟩
          have hz : z = 47 := by simpa using g2
          have := Matches.param (x := x) (seg := seg) g1 (Or.inr (by simp [hz] : (z :: u ++ (b ++ R)).head? = some 47)) g3 (hw h)
          simpa using this
      · exfalso
        exact g1 (by simp [List.mem_of_getLast? ht])
  | star hs =>
    intro a b c e _ _
    have : (58 : UInt8) = 42 := by
      have h32 : (58 : UInt8) ∈ a ++ (b ++ 58 :: c) := by simp
      rw [← e] at h32
      rcases List.mem_cons.1 h32 with h | h
      · exact h
      · exact hs 58 h
    exact absurd this (by decide)

theorem first_colon : ∀ {b : Str}, 58 ∈ b → ∃ b1 b2, b = b1 ++ 58 :: b2 ∧ 58 ∉ b1 := by
  intro b
  induction b with
  | nil => intro h; cases h
  | cons c b ih =>
    intro h
    by_cases hc : c = 58
    · subst hc; exact ⟨[], b, rfl, nofun⟩
    · obtain ⟨b1, b2, rfl, h1⟩ := ih ((List.mem_cons.1 h).resolve_left fun h => hc h.symm)
      exact ⟨c :: b1, b2, rfl, by simp only [List.mem_cons, not_or]; exact ⟨fun h => hc h.symm, h1⟩⟩

/-- C05 as intended, for actions that are words without wildcards. -/
def C05_full : Prop := ∀ res act res' act' : Str, 32 ∉ act → 42 ∉ act → 58 ∉ act → 47 ∉ act → 32 ∉ act' →
  matchResource (res' ++ 32 :: act') (res ++ 32 :: act) = .ok true → act' = act

theorem C05_full_false : ¬ C05_full := by
  intro h
  have := h (str "user/:id") (str "create") (str "user/1") (str "delete") (by decide +kernel) (by decide +kernel)
    (by decide +kernel) (by decide +kernel) (by decide +kernel) C05_counterexample
  exact absurd this (by decide +kernel)

/-- C05, exactly: a permission that matches anything at all matches a request with another action
exactly if the last segment of its resource has a parameter. -/
theorem C05_exact (res act : Str) (h1 : 32 ∉ act) (h2 : 42 ∉ act) (h3 : 58 ∉ act) (h4 : 47 ∉ act) :
    (∃ res' act', 32 ∉ act' ∧ act' ≠ act ∧ matchResource (res' ++ 32 :: act') (res ++ 32 :: act) = .ok true) ↔
      LastParam res ∧ ∃ v, matchResource v (res ++ 32 :: act) = .ok true := by
  constructor
  · rintro ⟨res', act', h5, h6, h7⟩
    refine ⟨Classical.byContradiction fun hn => h6 ?_, _, h7⟩
    obtain ⟨a, b, rfl, ha, hb⟩ := last_split res
    have hb58 : 58 ∉ b := fun h => hn ⟨a, b, rfl, ha, hb, h⟩
    rw [matchResource_true_iff, List.append_assoc] at h7
    obtain ⟨v, hv⟩ := matches_tail' h2 h7 a b rfl ha hb58 h3
    rw [← List.append_assoc] at hv
    exact sep_unique hv h5 h1
  · rintro ⟨⟨a, b, rfl, ha, hb, hc⟩, v, hv⟩
    obtain ⟨b1, b2, rfl, hb1⟩ : ∃ b1 b2, b = b1 ++ 58 :: b2 ∧ 58 ∉ b1 := by
      exact first_colon hc
    rw [matchResource_true_iff] at hv
    obtain ⟨u, hu⟩ := matches_front hv a b1 (b2 ++ 32 :: act) (by simp) ha hb1
    refine ⟨u ++ [120], act ++ [120], by simp [h1], by simp, ?_⟩
    rw [matchResource_true_iff]
    have := hu (Matches.param (name := b2 ++ 32 :: act) (ps := []) (x := 120) (seg := 32 :: (act ++ [120])) (vs := [])
      (by simp at hb; simp [hb, h4]) (Or.inl rfl) (by simp [h4]) .nil)
    simpa using this

/-- "user/:id GET" matches a request for another action, "user/:id/edit GET" does not. -/
example : (∃ res' act', 32 ∉ act' ∧ act' ≠ str "GET" ∧
      matchResource (res' ++ 32 :: act') (str "user/:id" ++ 32 :: str "GET") = .ok true) ∧
    ¬ (∃ res' act', 32 ∉ act' ∧ act' ≠ str "GET" ∧
      matchResource (res' ++ 32 :: act') (str "user/:id/edit" ++ 32 :: str "GET") = .ok true) := by
  refine ⟨(C05_exact _ _ (by decide +kernel) (by decide +kernel) (by decide +kernel) (by decide +kernel)).2
    ⟨⟨str "user/", str ":id", by decide +kernel, Or.inr (by decide +kernel), by decide +kernel, by decide +kernel⟩,
      str "user/1 GET", by decide +kernel⟩, ?_⟩
  rintro ⟨res', act', h1, h2, h3⟩
  exact h2 (C05_action_partial (str "user/:id/") (str "edit") (str "GET") res' act' (by decide +kernel)
    (Or.inr (by decide +kernel)) (by decide +kernel) (by decide +kernel) (by decide +kernel) h1 h3)

end Verif
