import Verif.Props.RoleOps
import Verif.Props.Serialize

/-!
# Exactly when some of the intended properties hold (C18, C66, C80)
-/

namespace Verif
open Spec

/-! ## C18 -/

/-- C18. A listed permission is granted exactly if the role carries the group itself. -/
theorem C18_exact {h : RHeap} (ok : Spec.RHeap.OK h) {o : Ord} {n : Nat} {site : List Val} {r : Nat}
    {m : GoMap Str (List Attr)} (hm : h.allImplicit o n site r [] = .ok m) {k : Str} {a : Attr} (ha : a ∈ (m.get k).getD [])
    {o' : Ord} {n' : Nat} {site' : List Val} {b : Bool} (hb : h.has o' k a.toStr [] n' site' r = .ok b) :
    b = true ↔ ∃ g, GroupOf h r k g :=
  (C16_has ok hb).trans ⟨fun g => g.1, fun g => C18_usable_partial ok hm g ha⟩

/-! ## C66 -/

/-- C66. Two attributes have the same text exactly if they are equal or the resource of one goes on with a space and the
beginning of the action of the other. -/
theorem C66_exact (a b : Attr) : a.toStr = b.toStr ↔ a = b ∨
    (∃ m, b.resource = a.resource ++ 32 :: m ∧ a.action = m ++ 32 :: b.action) ∨
    ∃ m, a.resource = b.resource ++ 32 :: m ∧ b.action = m ++ 32 :: a.action := by
  rw [RHeap.toStr_eq, RHeap.toStr_eq]
  constructor
  · intro h
    rcases List.append_eq_append_iff.1 h with ⟨m, h1, h2⟩ | ⟨m, h1, h2⟩
    · cases m with
      | nil =>
        left
        simp only [List.append_nil, List.nil_append, List.cons.injEq, true_and] at h1 h2
        cases a; cases b; simp_all
      | cons x m =>
        simp only [List.cons_append, List.cons.injEq] at h2
        obtain ⟨rfl, h2⟩ := h2
        exact .inr (.inl ⟨m, h1, h2⟩)
    · cases m with
      | nil =>
        left
        simp only [List.append_nil, List.nil_append, List.cons.injEq, true_and] at h1 h2
        cases a; cases b; simp_all
      | cons x m =>
        simp only [List.cons_append, List.cons.injEq] at h2
        obtain ⟨rfl, h2⟩ := h2
        exact .inr (.inr ⟨m, h1, h2⟩)
  · rintro (rfl | ⟨m, h1, h2⟩ | ⟨m, h1, h2⟩)
    · rfl
    · rw [h1, h2]; simp
    · rw [h1, h2]; simp

/-- C66. Both cases occur. -/
example : (⟨str "a b", str "c"⟩ : Attr).toStr = (⟨str "a", str "b c"⟩ : Attr).toStr ∧
    (⟨str "a b", str "c"⟩ : Attr).resource = (⟨str "a", str "b c"⟩ : Attr).resource ++ 32 :: str "b" := by decide +kernel

/-! ## C80 -/

/-- The text of one entry. -/
def SerEntry.text (e : SerEntry) : Str := serField e.key e.value

theorem serializeMap_eq (s : List SerEntry) : serializeMap s = s.flatMap SerEntry.text := by
  have : ∀ (l : List SerEntry) (acc : Str), l.foldl (fun acc e => acc ++ serField e.key e.value) acc =
      acc ++ l.flatMap SerEntry.text := by
    intro l
    induction l with
    | nil => simp
    | cons x l ih => intro acc; rw [List.foldl_cons, ih, List.flatMap_cons]; simp [SerEntry.text]
  exact (this s []).trans (List.nil_append _)

/-- `e` can be moved in front of entries with which its text can be swapped. -/
theorem text_front {e : SerEntry} {l : List SerEntry} (h : ∀ x ∈ l, x.text ++ e.text = e.text ++ x.text) :
    l.flatMap SerEntry.text ++ e.text = e.text ++ l.flatMap SerEntry.text := by
  induction l with
  | nil => simp
  | cons x l ih =>
    rw [List.flatMap_cons, List.append_assoc, ih fun y hy => h y (List.mem_cons_of_mem _ hy), ← List.append_assoc,
      h x List.mem_cons_self, List.append_assoc]

theorem serialize_unique {m s s' : List SerEntry} (h : SortResult m s) (h' : SortResult m s')
    (hc : ∀ a ∈ m, ∀ b ∈ m, a.sort = b.sort → a.text ++ b.text = b.text ++ a.text) :
    s.flatMap SerEntry.text = s'.flatMap SerEntry.text := by
  have key : ∀ (s s' : List SerEntry), s.Perm s' → s.Pairwise (fun x y => strLt y.sort x.sort = false) →
      s'.Pairwise (fun x y => strLt y.sort x.sort = false) →
      (∀ a ∈ s, ∀ b ∈ s, a.sort = b.sort → a.text ++ b.text = b.text ++ a.text) →
      s.flatMap SerEntry.text = s'.flatMap SerEntry.text := by
    intro s
    induction s with
    | nil => intro s' hp _ _ _; rw [List.nil_perm.1 hp]
    | cons e s ih =>
      intro s' hp h1 h2 hc
      obtain ⟨l, r, rfl⟩ := List.append_of_mem (hp.mem_iff.1 List.mem_cons_self)
      have hp' : s.Perm (l ++ r) := List.Perm.cons_inv (hp.trans List.perm_middle)
      have h2' : (l ++ r).Pairwise (fun x y => strLt y.sort x.sort = false) :=
        h2.sublist ((List.sublist_cons_self e r).append_left l)
      rw [List.flatMap_cons, ih _ hp' (List.pairwise_cons.1 h1).2 h2'
        fun a ha b hb => hc a (List.mem_cons_of_mem _ ha) b (List.mem_cons_of_mem _ hb)]
      rw [List.flatMap_append, List.flatMap_append, List.flatMap_cons, ← List.append_assoc, ← List.append_assoc]
      congr 1
      refine (text_front fun x hx => ?_).symm
      have hx' : x ∈ s := hp'.mem_iff.2 (List.mem_append_left _ hx)
      have e1 : strLt x.sort e.sort = false := (List.pairwise_cons.1 h1).1 x hx'
      have e2 : strLt e.sort x.sort = false := (List.pairwise_append.1 h2).2.2 x hx e List.mem_cons_self
      exact hc x (List.mem_cons_of_mem _ hx') e List.mem_cons_self (strLt_antisymm e1 e2)
  exact key s s' (h.1.trans h'.1.symm) h.2 h'.2 fun a ha b hb => hc a (h.1.mem_iff.1 ha) b (h.1.mem_iff.1 hb)

theorem strLt_irrefl : ∀ a : Str, strLt a a = false
  | [] => rfl
  | x :: a => by simp [strLt, UInt8.lt_irrefl, strLt_irrefl a]

theorem strLt_trans : ∀ {a b c : Str}, strLt b a = false → strLt c b = false → strLt c a = false := by
  intro a
  induction a with
  | nil => intro b c _ _; cases c <;> rfl
  | cons x a ih =>
    intro b c h1 h2
    cases b with
    | nil => simp [strLt] at h1
    | cons y b =>
      cases c with
      | nil => simp [strLt] at h2
      | cons z c =>
        simp only [strLt] at h1 h2 ⊢
        have n1 : ¬ y < x := by intro h; simp [h] at h1
        have n2 : ¬ z < y := by intro h; simp [h] at h2
        simp only [n1, n2, if_false] at h1 h2
        have l1 : x ≤ y := UInt8.not_lt.1 n1
        have l2 : y ≤ z := UInt8.not_lt.1 n2
        have n3 : ¬ z < x := UInt8.not_lt.2 (UInt8.le_trans l1 l2)
        simp only [n3, if_false]
        by_cases hxz : x < z
        · simp [hxz]
        · have e : x = z := UInt8.le_antisymm (UInt8.le_trans l1 l2) (UInt8.not_lt.1 hxz)
          subst e
          have e2 : x = y := UInt8.le_antisymm l1 l2
          subst e2
          simp only [UInt8.lt_irrefl, if_false] at h1 h2 ⊢
          exact ih h1 h2

theorem strLt_total : ∀ a b : Str, strLt a b = false ∨ strLt b a = false := by
  intro a
  induction a with
  | nil => intro b; right; cases b <;> rfl
  | cons x a ih =>
    intro b
    cases b with
    | nil => left; rfl
    | cons y b =>
      simp only [strLt]
      by_cases hxy : x < y
      · right; simp [hxy, UInt8.lt_asymm hxy]
      · by_cases hyx : y < x
        · left; simp [hxy, hyx]
        · simpa [hxy, hyx] using ih b

/-- A sorted list stays sorted if two entries with one sort text are put, in either order, where they belong. -/
theorem sorted_insert {a b : SerEntry} (hab : a.sort = b.sort) {s : List SerEntry}
    (h : s.Pairwise fun x y => strLt y.sort x.sort = false) :
    ∃ l r, s = l ++ r ∧ (l ++ a :: b :: r).Pairwise (fun x y => strLt y.sort x.sort = false) ∧
      (l ++ b :: a :: r).Pairwise (fun x y => strLt y.sort x.sort = false) := by
  induction s with
  | nil =>
    have e := strLt_irrefl b.sort
    refine ⟨[], [], rfl, ?_, ?_⟩ <;> simp [hab, e]
  | cons x s ih =>
    obtain ⟨h1, h2⟩ := List.pairwise_cons.1 h
    by_cases hx : strLt x.sort a.sort = true
    · obtain ⟨l, r, rfl, p1, p2⟩ := ih h2
      have ha : strLt a.sort x.sort = false := (strLt_total a.sort x.sort).resolve_right (by rw [hx]; decide)
      refine ⟨x :: l, r, rfl, ?_, ?_⟩
      · refine List.pairwise_cons.2 ⟨fun y hy => ?_, p1⟩
        rcases List.mem_append.1 hy with hy | hy
        · exact h1 y (List.mem_append_left _ hy)
        · rcases List.mem_cons.1 hy with rfl | hy
          · exact ha
          · rcases List.mem_cons.1 hy with rfl | hy
            · exact hab ▸ ha
            · exact h1 y (List.mem_append_right _ hy)
      · refine List.pairwise_cons.2 ⟨fun y hy => ?_, p2⟩
        rcases List.mem_append.1 hy with hy | hy
        · exact h1 y (List.mem_append_left _ hy)
        · rcases List.mem_cons.1 hy with rfl | hy
          · exact hab ▸ ha
          · rcases List.mem_cons.1 hy with rfl | hy
            · exact ha
            · exact h1 y (List.mem_append_right _ hy)
    · have hx' : strLt x.sort a.sort = false := by simpa using hx
      have hs : ∀ y ∈ x :: s, strLt y.sort a.sort = false := by
        intro y hy
        rcases List.mem_cons.1 hy with rfl | hy
        · exact hx'
        · exact strLt_trans hx' (h1 y hy)
      have e := strLt_irrefl b.sort
      refine ⟨[], x :: s, rfl, ?_, ?_⟩
      · refine List.pairwise_cons.2 ⟨fun y hy => ?_, List.pairwise_cons.2 ⟨fun y hy => hab ▸ hs y hy, h⟩⟩
        rcases List.mem_cons.1 hy with rfl | hy
        · rw [hab]; exact e
        · exact hs y hy
      · refine List.pairwise_cons.2 ⟨fun y hy => ?_, List.pairwise_cons.2 ⟨fun y hy => hs y hy, h⟩⟩
        rcases List.mem_cons.1 hy with rfl | hy
        · rw [hab]; exact e
        · exact hab ▸ hs y hy

/-- C80. A map has one text, whatever the iteration order and the sort do, exactly if any two entries whose keys have the
same sort text can be swapped in the text. -/
theorem C80_exact (m : List SerEntry) : (∀ s s', SortResult m s → SortResult m s' → serializeMap s = serializeMap s') ↔
    ∀ a b rest, m.Perm (a :: b :: rest) → a.sort = b.sort → a.text ++ b.text = b.text ++ a.text := by
  constructor
  · intro h a b m' hm' hab
    obtain ⟨s, hs1, hs2⟩ := C80_exists m'
    obtain ⟨l, r, rfl, p1, p2⟩ := sorted_insert hab hs2
    have q1 : (l ++ a :: b :: r).Perm m := by
      refine (List.perm_middle.trans (List.Perm.cons a ?_)).trans hm'.symm
      exact List.perm_middle.trans (List.Perm.cons b hs1)
    have q2 : (l ++ b :: a :: r).Perm m := by
      refine List.Perm.trans ?_ q1
      exact List.Perm.append_left l (List.Perm.swap a b r)
    have e := h _ _ ⟨q1, p1⟩ ⟨q2, p2⟩
    rw [serializeMap_eq, serializeMap_eq] at e
    simp only [List.flatMap_append, List.flatMap_cons] at e
    have e := List.append_cancel_left e
    rw [← List.append_assoc, ← List.append_assoc] at e
    exact List.append_cancel_right e
  · intro h s s' h1 h2
    rw [serializeMap_eq, serializeMap_eq]
    refine serialize_unique h1 h2 fun a ha b hb hab => ?_
    by_cases e : a = b
    · rw [e]
    · have hm1 := List.perm_cons_erase ha
      have hm2 := List.perm_cons_erase ((List.mem_cons.1 (hm1.mem_iff.1 hb)).resolve_left fun h => e h.symm)
      exact h a b _ (hm1.trans (hm2.cons a)) hab

/-- C80. Entries with integer keys: the text is unique for one entry, and for two exactly if they can be swapped. -/
example : (∀ s s', SortResult [⟨str "<int Value>", str "1", str "x"⟩] s → SortResult [⟨str "<int Value>", str "1", str "x"⟩] s' →
    serializeMap s = serializeMap s') := by
  rw [C80_exact]
  intro a b l h
  have := h.length_eq
  simp at this

/-- C80. So maps with two keys that have the same sort text and no `:` in them, such as integers, have several texts. -/
theorem C80_not_unique {m rest : List SerEntry} {a b : SerEntry} (hm : m.Perm (a :: b :: rest)) (hs : a.sort = b.sort)
    (hk : a.key ≠ b.key) (ha : (58 : UInt8) ∉ a.key) (hb : (58 : UInt8) ∉ b.key) :
    ∃ s s', SortResult m s ∧ SortResult m s' ∧ serializeMap s ≠ serializeMap s' := by
  have key : ¬ (∀ s s', SortResult m s → SortResult m s' → serializeMap s = serializeMap s') := by
    rw [C80_exact]
    intro h
    have e := h a b rest hm hs
    have inj : ∀ (c : UInt8) (x y u v : Str), c ∉ x → c ∉ y → x ++ c :: u = y ++ c :: v → x = y := by
      intro c x
      induction x with
      | nil =>
        intro y u v _ hy e
        cases y with
        | nil => rfl
        | cons z y =>
          simp only [List.nil_append, List.cons_append, List.cons.injEq] at e
          exact absurd e.1 fun e => hy (e ▸ List.mem_cons_self)
      | cons q x ih =>
        intro y u v hx hy e
        cases y with
        | nil =>
          simp only [List.nil_append, List.cons_append, List.cons.injEq] at e
          exact absurd e.1 fun e => hx (e ▸ List.mem_cons_self)
        | cons z y =>
          simp only [List.cons_append, List.cons.injEq] at e
          rw [e.1, ih y u v (fun h => hx (List.mem_cons_of_mem _ h)) (fun h => hy (List.mem_cons_of_mem _ h)) e.2]
    have f : ∀ x : SerEntry, x.text = x.key ++ 58 :: (x.value ++ [124]) := by
      intro x; simp [SerEntry.text, serField]
    rw [f, f, List.append_assoc, List.append_assoc] at e
    exact hk (inj 58 _ _ _ _ ha hb e)
  rcases Classical.em (∃ s s', SortResult m s ∧ SortResult m s' ∧ serializeMap s ≠ serializeMap s') with h | h
  · exact h
  · exact absurd (fun s s' h1 h2 => Classical.byContradiction fun h3 => h ⟨s, s', h1, h2, h3⟩) key

/-- C80. The keys 1 and 2. -/
example : ∃ s s', SortResult [⟨str "<int Value>", str "1", str "x"⟩, ⟨str "<int Value>", str "2", str "x"⟩] s ∧
    SortResult [⟨str "<int Value>", str "1", str "x"⟩, ⟨str "<int Value>", str "2", str "x"⟩] s' ∧
    serializeMap s ≠ serializeMap s' :=
  C80_not_unique (rest := []) (List.Perm.refl _) rfl (by decide +kernel) (by decide +kernel) (by decide +kernel)

end Verif
