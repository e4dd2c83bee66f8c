import Verif.Model.Utils

/-!
# C12-C15: utilities and ds.Link
-/

namespace Verif

/-! ## C12 Compact -/

theorem compactLoop_spec (l keys res : List Val) (hk : ∀ x, x ∈ keys ↔ x ∈ res) (hn : res.Nodup) :
    (compactLoop keys res l).Nodup ∧ (∀ x, x ∈ compactLoop keys res l ↔ x ∈ res ∨ x ∈ l) ∧
    res <+: compactLoop keys res l ∧
    ∃ t, compactLoop keys res l = res ++ t ∧ t.Sublist l := by
  induction l generalizing keys res with
  | nil => simp [compactLoop, hn]
  | cons a l ih =>
    rw [compactLoop]
    split
    · rename_i h
      obtain ⟨h1, h2, h3, t, h4, h5⟩ := ih keys res hk hn
      refine ⟨h1, fun x => ?_, h3, t, h4, h5.cons _⟩
      rw [h2]; have := (hk a).1 h
      simp only [List.mem_cons]
      constructor
      · rintro (h | h) <;> simp [h]
      · rintro (h | h | h)
        · exact .inl h
        · subst h; exact .inl this
        · exact .inr h
    · rename_i h
      have ha : a ∉ res := fun h' => h ((hk a).2 h')
      obtain ⟨h1, h2, h3, t, h4, h5⟩ := ih (a :: keys) (res ++ [a])
        (fun x => by simp [hk x, or_comm]) (by
          rw [List.nodup_append]; simp [hn]; intro b hb e; exact ha (e ▸ hb))
      refine ⟨h1, fun x => ?_, (List.prefix_append _ _).trans h3, a :: t, by rw [h4]; simp, ?_⟩
      · rw [h2]; simp [or_assoc]
      · exact h5.cons_cons a

/-- C12: no duplicates, same elements, order of first occurrence (`order`: if `x` is returned
before `y` then the first `x` precedes the first `y` in the input), idempotent. -/
theorem C12_compact (l : List Val) :
    (compact l).Nodup ∧ (∀ x, x ∈ compact l ↔ x ∈ l) ∧
    ((compact l).Pairwise (fun x y => l.idxOf x < l.idxOf y)) ∧
    compact (compact l) = compact l := by
  obtain ⟨h1, h2, _, _⟩ := compactLoop_spec l [] [] (by simp) (by simp)
  have h2' : ∀ x, x ∈ compact l ↔ x ∈ l := fun x => by rw [compact, h2]; simp
  refine ⟨h1, h2', ?_, ?_⟩
  · have key : ∀ (l keys res pre : List Val), (∀ x, x ∈ keys ↔ x ∈ res) → (∀ x, x ∈ res ↔ x ∈ pre) →
        res.Pairwise (fun x y => (pre ++ l).idxOf x < (pre ++ l).idxOf y) →
        (compactLoop keys res l).Pairwise (fun x y => (pre ++ l).idxOf x < (pre ++ l).idxOf y) := by
      intro l
      induction l with
      | nil => intro keys res pre _ _ h; simpa [compactLoop] using h
      | cons a l ih =>
        intro keys res pre hk hp h
        rw [compactLoop]
        have e : pre ++ a :: l = (pre ++ [a]) ++ l := by simp
        split
        · rename_i ha
          rw [e] at h ⊢
          refine ih keys res (pre ++ [a]) hk (fun x => ?_) h
          have := (hp a).1 ((hk a).1 ha)
          rw [hp]; simp only [List.mem_append, List.mem_singleton]
          constructor
          · exact .inl
          · rintro (h | rfl) <;> assumption
        · rename_i ha
          have hna : a ∉ pre := fun h' => ha ((hk a).2 ((hp a).2 h'))
          have hr : (res ++ [a]).Pairwise
              (fun x y => (pre ++ a :: l).idxOf x < (pre ++ a :: l).idxOf y) := by
            rw [List.pairwise_append]
            refine ⟨h, by simp, ?_⟩
            intro x hx y hy
            simp only [List.mem_singleton] at hy; subst hy
            have hxp := (hp x).1 hx
            rw [List.idxOf_append, List.idxOf_append, if_pos hxp, if_neg hna]
            have := List.idxOf_lt_length_of_mem hxp
            omega
          rw [e] at hr ⊢
          refine ih (a :: keys) (res ++ [a]) (pre ++ [a]) (fun x => by simp [hk x, or_comm])
            (fun x => by simp [hp x]) hr
    exact key l [] [] [] (by simp) (by simp) (by simp)
  · have key : ∀ (l keys res : List Val), (∀ x ∈ l, x ∉ keys) → l.Nodup →
        compactLoop keys res l = res ++ l := by
      intro l
      induction l with
      | nil => intro keys res _ _; simp [compactLoop]
      | cons a l ih =>
        intro keys res hk hn
        rw [compactLoop, if_neg (hk a (by simp))]
        rw [List.nodup_cons] at hn
        rw [ih _ _ (fun x hx => ?_) hn.2]
        · simp
        · simp only [List.mem_cons, not_or]
          exact ⟨fun e => hn.1 (e ▸ hx), hk x (by simp [hx])⟩
    have := key (compact l) [] [] (by simp) h1
    simpa [compact] using this

example : compact [.int 1, .str (str "a"), .int 1, .nil, .str (str "a")] =
    [.int 1, .str (str "a"), .nil] := by decide

/-- `Contains` decides membership. -/
theorem C12_contains (l : List Val) (x : Val) : contains x l = decide (x ∈ l) := by
  induction l with
  | nil => simp [contains]
  | cons a l ih =>
    rw [contains]; split
    · rename_i h; simp [h]
    · rename_i h; rw [ih]
      have : ¬ x = a := fun e => h e.symm
      simp [this]

/-! ## C13 JoinSlices -/

theorem foldl_filter_map {β γ : Type} (f : β → γ) (p : β → Bool) (l : List β) (acc : List γ) :
    l.foldl (fun acc r => if p r then acc ++ [f r] else acc) acc = acc ++ (l.filter p).map f := by
  induction l generalizing acc with
  | nil => simp
  | cons a l ih =>
    rw [List.foldl_cons, ih]
    cases h : p a <;> simp [h]

/-- C13: the join in left-major order, with multiplicity. -/
theorem C13_join {α β γ : Type} (left : List α) (right : List β) (on : α → β → Bool)
    (combine : α → β → γ) :
    joinSlices left right on combine =
      ((left.flatMap (fun l => right.map (fun r => (l, r)))).filter (fun p => on p.1 p.2)).map
        (fun p => combine p.1 p.2) := by
  have : ∀ acc, left.foldl (fun result l =>
      right.foldl (fun result r => if on l r then result ++ [combine l r] else result) result) acc =
      acc ++ ((left.flatMap (fun l => right.map (fun r => (l, r)))).filter (fun p => on p.1 p.2)).map
        (fun p => combine p.1 p.2) := by
    induction left with
    | nil => simp
    | cons a l ih =>
      intro acc
      rw [List.foldl_cons, ih, foldl_filter_map]
      simp [List.filter_map, Function.comp_def]
  simpa [joinSlices] using this []

example : joinSlices [1, 2, 3] [2, 3] (fun a b => a < b) (fun a b => (a, b)) =
    [(1, 2), (1, 3), (2, 3)] := by decide

/-! ## C14 Intersection, Union, Serialize -/

theorem foldl_ser {α : Type} (ser : α → Str) (a : List α) (s : List Str) (x : Str) :
    x ∈ a.foldl (fun set item => ser item :: set) s ↔ x ∈ s ∨ ∃ y ∈ a, ser y = x := by
  induction a generalizing s with
  | nil => simp
  | cons b a ih =>
    rw [List.foldl_cons, ih]
    constructor
    · rintro (h | ⟨y, h, rfl⟩)
      · rcases List.mem_cons.1 h with rfl | h
        · exact .inr ⟨b, by simp, rfl⟩
        · exact .inl h
      · exact .inr ⟨y, by simp [h], rfl⟩
    · rintro (h | ⟨y, h, rfl⟩)
      · exact .inl (by simp [h])
      · rcases List.mem_cons.1 h with rfl | h
        · exact .inl (by simp)
        · exact .inr ⟨y, h, rfl⟩

/-- C14: Intersection keeps exactly the elements of `b` whose serialisation occurs in `a`. -/
theorem C14_intersection {α : Type} (ser : α → Str) (a b : List α) :
    intersection ser a b = b.filter (fun x => decide (ser x ∈ a.map ser)) := by
  have h := foldl_filter_map (f := id)
    (p := fun x => decide (ser x ∈ a.foldl (fun set item => ser item :: set) [])) b []
  simp only [decide_eq_true_eq, List.nil_append, List.map_id, id] at h
  rw [intersection, h]
  congr 1; funext x
  have := foldl_ser ser a [] (ser x)
  simp only [this, List.mem_map]
  simp

/-- C14: Union is `a` followed by the elements of `b` whose serialisation does not occur in `a`. -/
theorem C14_union {α : Type} (ser : α → Str) (a b : List α) :
    union ser a b = a ++ b.filter (fun x => decide (ser x ∉ a.map ser)) := by
  have st : ∀ (a : List α) (s : List Str) (u : List α),
      a.foldl (fun (st : List Str × List α) item => (ser item :: st.1, st.2 ++ [item])) (s, u) =
        (a.foldl (fun set item => ser item :: set) s, u ++ a) := by
    intro a
    induction a with
    | nil => simp
    | cons b a ih => intro s u; rw [List.foldl_cons, ih]; simp
  rw [union]
  simp only [st a [] [], List.nil_append]
  have h := foldl_filter_map (f := id)
    (p := fun x => decide (ser x ∉ a.foldl (fun set item => ser item :: set) [])) b a
  simp only [decide_eq_true_eq, List.map_id, id, ite_not] at h
  rw [h]
  congr 2; funext x
  have := foldl_ser ser a [] (ser x)
  simp only [this, List.mem_map]
  simp

/-- C14: Intersection is set intersection for all arguments iff the serialisation is injective. -/
theorem C14_set_intersection {α : Type} (ser : α → Str) :
    (∀ a b x, x ∈ intersection ser a b ↔ x ∈ a ∧ x ∈ b) ↔ ∀ x y, ser x = ser y → x = y := by
  constructor
  · intro h x y e
    have h1 := (h [x] [y] y).1 (by rw [C14_intersection]; simp [e])
    exact (List.mem_singleton.1 h1.1).symm
  · intro h a b x
    rw [C14_intersection]
    simp only [List.mem_filter, List.mem_map, decide_eq_true_eq]
    constructor
    · rintro ⟨h1, y, h2, h3⟩; exact ⟨h _ _ h3 ▸ h2, h1⟩
    · rintro ⟨h1, h2⟩; exact ⟨h2, x, h1, rfl⟩

/-- C14: Union is set union for all arguments iff the serialisation is injective. -/
theorem C14_set_union {α : Type} (ser : α → Str) :
    (∀ a b x, x ∈ union ser a b ↔ x ∈ a ∨ x ∈ b) ↔ ∀ x y, ser x = ser y → x = y := by
  constructor
  · intro h x y e
    have h1 := (h [x] [y] y).2 (by simp)
    rw [C14_union] at h1
    simp [e] at h1
    exact h1.symm
  · intro h a b x
    rw [C14_union]
    simp only [List.mem_append, List.mem_filter, List.mem_map, decide_eq_true_eq]
    constructor
    · rintro (h1 | h1) <;> simp [h1]
    · rintro (h1 | h1)
      · exact .inl h1
      · by_cases hx : ∃ y, y ∈ a ∧ ser y = ser x
        · obtain ⟨y, hy, e⟩ := hx; exact .inl (h _ _ e ▸ hy)
        · exact .inr ⟨h1, hx⟩

/-- C14: struct serialisation is not injective: `{A: "1|B:2", B: "3"}` and `{A: "1", B: "2|B:3"}`. -/
theorem C14_serialize_collision :
    serializeStruct [(str "A", str "1|B:2"), (str "B", str "3")] =
      serializeStruct [(str "A", str "1"), (str "B", str "2|B:3")] := by decide

/-- The exact text of a struct serialisation. -/
theorem C14_serializeStruct (fs : List (Str × Str)) :
    serializeStruct fs = fs.flatMap (fun f => f.1 ++ str ":" ++ f.2 ++ str "|") := by
  have : ∀ acc, fs.foldl (fun acc f => acc ++ serField f.1 f.2) acc =
      acc ++ fs.flatMap (fun f => f.1 ++ str ":" ++ f.2 ++ str "|") := by
    induction fs with
    | nil => simp
    | cons f fs ih =>
      intro acc; rw [List.foldl_cons, ih]
      have e1 : str ":" = [58] := by decide
      have e2 : str "|" = [124] := by decide
      simp [serField, e1, e2]
  simpa [serializeStruct] using this []

theorem append_sep_inj {s : UInt8} : ∀ {a b c d : Str}, s ∉ a → s ∉ c → a ++ s :: b = c ++ s :: d →
    a = c ∧ b = d := by
  intro a
  induction a with
  | nil =>
    intro b c d _ hc h
    cases c with
    | nil => simpa using h
    | cons x c => simp at h; exact absurd (by simp [h.1]) hc
  | cons y a ih =>
    intro b c d ha hc h
    cases c with
    | nil => simp at h; exact absurd (by simp [h.1]) ha
    | cons x c =>
      simp at h ha hc
      obtain ⟨rfl, rfl⟩ := ih (b := b) (c := c) (d := d) ha.2 hc.2 h.2
      exact ⟨by rw [h.1], rfl⟩

/-- C14: struct values of one type (same field names) whose rendered fields contain no '|' are
separated by their serialisation. -/
theorem C14_serialize_injective (f g : List (Str × Str)) (hn : f.map Prod.fst = g.map Prod.fst)
    (hf : ∀ p ∈ f, 124 ∉ p.2) (hg : ∀ p ∈ g, 124 ∉ p.2)
    (h : serializeStruct f = serializeStruct g) : f = g := by
  rw [C14_serializeStruct, C14_serializeStruct] at h
  induction f generalizing g with
  | nil => cases g with
    | nil => rfl
    | cons => simp at hn
  | cons p f ih =>
    cases g with
    | nil => simp at hn
    | cons q g =>
      simp only [List.map_cons, List.cons.injEq] at hn
      have e2 : str "|" = [124] := by decide
      simp only [List.flatMap_cons, hn.1, List.append_assoc, e2] at h
      have h := List.append_cancel_left h
      have h := List.append_cancel_left h
      obtain ⟨h1, h2⟩ := append_sep_inj (hf p (by simp)) (hg q (by simp)) (by simpa using h)
      rw [ih g hn.2 (fun p hp => hf p (by simp [hp])) (fun p hp => hg p (by simp [hp])) (by rw [e2]; simpa using h2)]
      congr 1
      exact Prod.ext hn.1 h1

example : serializeStruct [(str "Id", str "7"), (str "Name", str "x")] = str "Id:7|Name:x|" := by decide

/-! ## C15 ds.Link -/

/-- Constructions with the `ds` API. -/
inductive Spec.Build (α : Type) where
  | empty
  | append (b : Spec.Build α) (x : α)
  | concat (a b : Spec.Build α)

/-- The construction carried out with `ds.Link`. -/
def Spec.Build.link {α : Type} : Spec.Build α → Link α
  | .empty => .empty
  | .append b x => b.link.doAppend x
  | .concat a b => a.link.doConcat b.link

/-- The construction carried out with slices. -/
def Spec.Build.list {α : Type} : Spec.Build α → List α
  | .empty => []
  | .append b x => b.list ++ [x]
  | .concat a b => a.list ++ b.list

theorem Link.asSlice_doConcat {α : Type} (a b : Link α) :
    (a.doConcat b).asSlice = a.asSlice ++ b.asSlice := by
  cases a <;> cases b <;> simp [doConcat, isEmpty, asSlice]

/-- C15: a Link is the list it was built as. -/
theorem C15_link {α : Type} (b : Spec.Build α) :
    b.link.asSlice = b.list ∧ (b.link.isEmpty = true ↔ b.list = []) := by
  have wf : ∀ b : Spec.Build α, (b.link.isEmpty = true ↔ b.link.asSlice = []) := by
    intro b
    induction b with
    | empty => simp [Spec.Build.link, Link.isEmpty, Link.asSlice]
    | append b x ih => simp [Spec.Build.link, Link.doAppend, Link.isEmpty, Link.asSlice]
    | concat a b iha ihb =>
      simp only [Spec.Build.link]
      rw [Link.asSlice_doConcat, List.append_eq_nil_iff, ← iha, ← ihb]
      cases a.link <;> cases b.link <;> simp [Link.doConcat, Link.isEmpty]
  have main : b.link.asSlice = b.list := by
    induction b with
    | empty => rfl
    | append b x ih => simp [Spec.Build.link, Spec.Build.list, Link.doAppend, Link.asSlice, ih]
    | concat a b iha ihb => simp [Spec.Build.link, Spec.Build.list, Link.asSlice_doConcat, iha, ihb]
  exact ⟨main, by rw [wf, main]⟩

example : (Spec.Build.concat (.append .empty 1) (.append (.append .empty 2) 3)).link.asSlice = [1, 2, 3] := by
  decide

end Verif
