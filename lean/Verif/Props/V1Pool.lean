import Verif.Lemmas.V1Pool
import Verif.Props.V1Assign

/-!
# Package v1: the slices of `GetAllowedRoles` come from shared pools (C77)
-/

namespace Verif
open Spec

/-- Between calls: no slice is in hand, every pooled array exists and is pooled once.  The content of the arrays is
arbitrary. -/
structure Mem.Pooled (m : Mem) : Prop where
  strs : m.strs.regs = [] ∧ m.strs.free.Nodup ∧ ∀ a ∈ m.strs.free, a < m.strs.arrs.length
  tps : m.tps.regs = [] ∧ m.tps.free.Nodup ∧ ∀ a ∈ m.tps.free, a < m.tps.arrs.length

/-- String array `a` is handed out to the call. -/
def Picks.Hands (c : Picks) (a : Nat) : Prop :=
  c.nsScopes = some a ∨ c.nsRoles = some a ∨ c.scopes = some a ∨ c.allowed = some a

namespace Arrays
variable {α : Type} {p : Arrays α}

theorem ok_of_pooled (h : p.regs = [] ∧ p.free.Nodup ∧ ∀ a ∈ p.free, a < p.arrs.length) : OK p :=
  ⟨by simpa [held, h.1] using h.2.1, by simpa [held, h.1] using h.2.2, by simp [h.1]⟩

theorem pooled_of_ok (h : OK p) (h' : p.regs = []) : p.regs = [] ∧ p.free.Nodup ∧ ∀ a ∈ p.free, a < p.arrs.length :=
  ⟨h', by simpa [held, h'] using h.nodup, by simpa [held, h'] using h.lt⟩

end Arrays

namespace V1
variable {w : V1} {m m' : Mem}

/-- The local variables hold the given lists. -/
structure Locals (m : Mem) (A B C D : List Str) (E F : List TP) : Prop where
  oks : m.strs.OK
  okt : m.tps.OK
  strs : m.strs.vals = [A, B, C, D]
  tps : m.tps.vals = [E, F]

/-- Only arrays in hand and new ones are changed. -/
def Moved (m m' : Mem) : Prop := Arrays.Step m.strs m'.strs ∧ Arrays.Step m.tps m'.tps

theorem Moved.trans {m'' : Mem} (h : Moved m m') (g : Moved m' m'') : Moved m m'' := ⟨h.1.trans g.1, h.2.trans g.2⟩

variable {A B C D : List Str} {E F : List TP} {c : Picks}

theorem Locals.slen (h : Locals m A B C D E F) : m.strs.regs.length = 4 := by
  rw [← Arrays.vals_length, h.strs]; rfl

theorem Locals.tlen (h : Locals m A B C D E F) : m.tps.regs.length = 2 := by
  rw [← Arrays.vals_length, h.tps]; rfl

theorem Locals.val (h : Locals m A B C D E F) : m.strs.val 0 = A ∧ m.strs.val 1 = B ∧ m.strs.val 2 = C ∧ m.strs.val 3 = D ∧
    m.tps.val 0 = E ∧ m.tps.val 1 = F := by
  refine ⟨?_, ?_, ?_, ?_, ?_, ?_⟩ <;> apply Arrays.val_of_vals <;> simp [h.strs, h.tps]

theorem sort_step (h : Locals m A B C D E F) (l : List TP) : Moved m (m.sortRows c l) ∧
    Locals (m.sortRows c l) A B (C ++ (l.filter fun y => y.scope ≠ []).map (·.scope)) D
      (E ++ l.filter fun y => y.namespace_ = [] ∧ y.scope = []) (F ++ l.filter fun y => y.namespace_ ≠ [] ∧ y.scope ≠ []) := by
  induction l generalizing m C E F with
  | nil => exact ⟨⟨.refl _, .refl _⟩, by simpa [Mem.sortRows] using h⟩
  | cons y l ih =>
    have hv := h.val
    have hs2 : 2 < m.strs.regs.length := by rw [h.slen]; omega
    have ht0 : 0 < m.tps.regs.length := by rw [h.tlen]; omega
    have ht1 : 1 < m.tps.regs.length := by rw [h.tlen]; omega
    obtain ⟨a1, a2, a3⟩ := Arrays.push_spec (zero := []) (grow := c.grow) h.oks hs2 y.scope
    obtain ⟨b1, b2, b3⟩ := Arrays.push_spec (zero := {}) (grow := c.grow) h.okt ht0 y
    obtain ⟨d1, d2, d3⟩ := Arrays.push_spec (zero := {}) (grow := c.grow) h.okt ht1 y
    rw [h.strs, hv.2.2.1] at a3
    rw [h.tps, hv.2.2.2.2.1] at b3
    rw [h.tps, hv.2.2.2.2.2] at d3
    show Moved m (Mem.sortRows c _ l) ∧ Locals (Mem.sortRows c _ l) _ _ _ _ _ _
    by_cases hsc : y.scope = []
    · by_cases hns : y.namespace_ = []
      · simp only [hsc, hns, ne_eq, not_true_eq_false, if_false, and_self, if_true]
        have h' : Locals { m with tps := m.tps.push {} c.grow 0 y } A B C D (E ++ [y]) F :=
          ⟨h.oks, b1, h.strs, by simpa using b3⟩
        obtain ⟨e1, e2⟩ := ih h'
        exact ⟨Moved.trans (m' := { m with tps := m.tps.push {} c.grow 0 y }) ⟨.refl _, b2⟩ e1, by simpa [hsc, hns] using e2⟩
      · simp only [hsc, hns, ne_eq, not_true_eq_false, if_false, and_false, and_true, not_false_eq_true]
        obtain ⟨e1, e2⟩ := ih h
        exact ⟨e1, by simpa [hsc, hns] using e2⟩
    · by_cases hns : y.namespace_ = []
      · simp only [hsc, hns, ne_eq, not_true_eq_false, if_false, and_false, not_false_eq_true, false_and, if_true]
        have h' : Locals { m with strs := m.strs.push [] c.grow 2 y.scope } A B (C ++ [y.scope]) D E F :=
          ⟨a1, h.okt, by simpa using a3, h.tps⟩
        obtain ⟨e1, e2⟩ := ih h'
        exact ⟨Moved.trans (m' := { m with strs := m.strs.push [] c.grow 2 y.scope }) ⟨a2, .refl _⟩ e1, by simpa [hsc, hns] using e2⟩
      · simp only [hsc, hns, ne_eq, not_false_eq_true, if_true, and_self]
        have h' : Locals { strs := m.strs.push [] c.grow 2 y.scope, tps := m.tps.push {} c.grow 1 y } A B (C ++ [y.scope]) D E (F ++ [y]) :=
          ⟨a1, d1, by simpa using a3, by simpa using d3⟩
        obtain ⟨e1, e2⟩ := ih h'
        exact ⟨Moved.trans ⟨a2, d2⟩ e1, by simpa [hsc, hns] using e2⟩

theorem push_local (h : Locals m A B C D E F) (xs : List Str) :
    Moved m { m with strs := m.strs.pushAll [] c.grow 3 xs } ∧ Locals { m with strs := m.strs.pushAll [] c.grow 3 xs } A B C (D ++ xs) E F := by
  obtain ⟨a1, a2, a3⟩ := Arrays.pushAll_spec (zero := []) (grow := c.grow) xs h.oks (i := 3) (by rw [h.slen]; omega)
  rw [h.strs, h.val.2.2.2.1] at a3
  exact ⟨⟨a2, .refl _⟩, ⟨a1, h.okt, by simpa using a3, h.tps⟩⟩

theorem slicesCompact_length (l : List Str) : (slicesCompact l).length ≤ l.length := by
  induction l with
  | nil => simp [slicesCompact]
  | cons x l ih =>
    cases l with
    | nil => simp [slicesCompact]
    | cons y l => rw [slicesCompact]; split <;> simp at ih ⊢ <;> omega

theorem pick_spec (h : Locals m A B C [] E F) (t : T1Obj) (n s : Str) :
    Moved m (m.pick c t n s).2 ∧ (m.pick c t n s).2.strs.OK ∧ (m.pick c t n s).2.tps.OK ∧
    (∀ sl, (m.pick c t n s).1 = some sl → sl.arr ∈ (m.pick c t n s).2.strs.held) ∧
    (m.pick c t n s).1.map (m.pick c t n s).2.strs.read =
      (let allowed := if 0 < B.length then B else E.map (·.role)
       if (s ∉ C ∧ E.length = 0) ∨ (0 < A.length ∧ s ∉ A) then none
       else
         let allowed := if n ≠ [] ∧ s ≠ [] ∧ 0 < F.length then
             allowed ++ (F.filter fun y => y.namespace_ = n ∧ y.scope = s).map (·.role) else allowed
         if ∀ r ∈ allowed, (t.roles.get r).isSome then some (slicesCompact allowed) else none) := by
  unfold Mem.pick
  have hv := h.val
  simp only [hv]
  generalize hfirst : (if 0 < B.length then B else E.map (·.role)) = first
  obtain ⟨g1, g2⟩ := push_local (c := c) h first
  rw [List.nil_append] at g2
  have gv := g2.val
  simp only [gv]
  split
  · exact ⟨g1, g2.oks, g2.okt, by simp, rfl⟩
  · have main : ∀ (m' : Mem) (L : List Str), Moved m m' → Locals m' A B C L E F →
        let r : Option Slice × Mem := if ∀ r ∈ m'.strs.val 3, (t.roles.get r).isSome then
            (some (m'.strs.compactAt [] 3 slicesCompact).1, { m' with strs := (m'.strs.compactAt [] 3 slicesCompact).2 }) else (none, m')
        Moved m r.2 ∧ r.2.strs.OK ∧ r.2.tps.OK ∧ (∀ sl, r.1 = some sl → sl.arr ∈ r.2.strs.held) ∧
        r.1.map r.2.strs.read = if ∀ r ∈ L, (t.roles.get r).isSome then some (slicesCompact L) else none := by
      intro m' L k1 k2
      obtain ⟨c1, c2, c3, c4, c5⟩ := Arrays.compact_spec (zero := []) k2.oks (i := 3) (by rw [k2.slen]; omega) slicesCompact_length
      rw [k2.val.2.2.2.1] at c5
      simp only [k2.val.2.2.2.1]
      split
      · refine ⟨k1.trans ⟨c2, .refl _⟩, c1, k2.okt, ?_, by simp [c5]⟩
        intro sl e
        cases e
        unfold Arrays.held
        rw [c3]; exact c4
      · exact ⟨k1, k2.oks, k2.okt, by simp, rfl⟩
    by_cases hc : n ≠ [] ∧ s ≠ [] ∧ 0 < F.length
    · simp only [if_pos hc]
      obtain ⟨j1, j2⟩ := push_local (c := c) g2 ((F.filter fun y => y.namespace_ = n ∧ y.scope = s).map (·.role))
      exact main _ _ (g1.trans j1) j2
    · simp only [if_neg hc]
      exact main _ _ g1 g2

/-- The arrays of the memory that are not in the pool or not handed to the call keep their content. -/
def Frame (c : Picks) (m m' : Mem) : Prop :=
  m.strs.arrs.length ≤ m'.strs.arrs.length ∧ ∀ a < m.strs.arrs.length, ¬ c.Hands a → m'.strs.arr a = m.strs.arr a

theorem getAll_spec (h : m.Pooled) (c : Picks) : Locals (m.getAll c) [] [] [] [] [] [] ∧ Frame c m (m.getAll c) ∧
    ∀ a ∈ (m.getAll c).strs.held, c.Hands a ∨ m.strs.arrs.length ≤ a := by
  have o0 := Arrays.ok_of_pooled h.strs
  have v0 : m.strs.vals = [] := by simp [Arrays.vals, h.strs.1]
  have l0 : m.strs.held = [] := by simp [Arrays.held, h.strs.1]
  obtain ⟨o1, v1, n1, f1, b1, l1, k1⟩ := Arrays.get_spec (zero := []) o0 c.nsScopes
  obtain ⟨o2, v2, n2, f2, b2, l2, k2⟩ := Arrays.get_spec (zero := []) o1 c.nsRoles
  obtain ⟨o3, v3, n3, f3, b3, l3, k3⟩ := Arrays.get_spec (zero := []) o2 c.scopes
  obtain ⟨o4, v4, n4, f4, b4, l4, k4⟩ := Arrays.get_spec (zero := []) o3 c.allowed
  have p0 := Arrays.ok_of_pooled h.tps
  have u0 : m.tps.vals = [] := by simp [Arrays.vals, h.tps.1]
  obtain ⟨p1, u1, _⟩ := Arrays.get_spec (zero := {}) p0 c.tenantRoles
  obtain ⟨p2, u2, _⟩ := Arrays.get_spec (zero := {}) p1 c.nsScopeRoles
  have es : (m.getAll c).strs = (((m.strs.get [] c.nsScopes).get [] c.nsRoles).get [] c.scopes).get [] c.allowed := rfl
  have et : (m.getAll c).tps = (m.tps.get {} c.tenantRoles).get {} c.nsScopeRoles := rfl
  refine ⟨⟨o4, p2, ?_, ?_⟩, ⟨?_, fun a ha _ => ?_⟩, fun a ha => ?_⟩
  · rw [es, v4, v3, v2, v1, v0]; rfl
  · rw [et, u2, u1, u0]; rfl
  · rw [es]
    omega
  · rw [es, f4 a (by omega), f3 a (by omega), f2 a (by omega), f1 a ha]
  · rw [es, l4, l3, l2, l1, l0] at ha
    unfold Picks.Hands
    simp only [List.nil_append, List.append_assoc, List.mem_append, List.mem_singleton] at ha
    rcases ha with rfl | rfl | rfl | rfl
    · rcases k1 with ⟨_, k⟩ | k
      · exact .inl (.inl k)
      · exact .inr k
    · rcases k2 with ⟨_, k⟩ | k
      · exact .inl (.inr (.inl k))
      · right; omega
    · rcases k3 with ⟨_, k⟩ | k
      · exact .inl (.inr (.inr (.inl k)))
      · right; omega
    · rcases k4 with ⟨_, k⟩ | k
      · exact .inl (.inr (.inr (.inr k)))
      · right; omega

/-- After a call whose local variables are `m'`. -/
theorem finish (h : m.Pooled) {m' : Mem} (hm : Moved (m.getAll c) m') (o1 : m'.strs.OK) (o2 : m'.tps.OK) :
    m'.putAll.Pooled ∧ Frame c m m'.putAll ∧ m'.putAll.strs.arrs = m'.strs.arrs ∧
    ∀ a ∈ m'.strs.held, a ∈ m'.putAll.strs.free ∧ (c.Hands a ∨ m.strs.arrs.length ≤ a) := by
  obtain ⟨_, h2, h3⟩ := getAll_spec h c
  obtain ⟨a1, a2, a3, a4⟩ := Arrays.putAll_spec o1
  obtain ⟨b1, b2, b3, b4⟩ := Arrays.putAll_spec o2
  have hs := hm.1.size
  have hg := h2.1
  refine ⟨⟨Arrays.pooled_of_ok a1 a2, Arrays.pooled_of_ok b1 b2⟩, ⟨?_, fun a ha hn => ?_⟩, a3, fun a ha => ⟨(a4 a).2 (.inl ha), ?_⟩⟩
  · show _ ≤ m'.strs.putAll.arrs.length
    rw [a3]; omega
  · show m'.strs.putAll.arr a = _
    unfold Arrays.arr
    rw [a3]
    refine (hm.1.frame a (by omega) fun k => ?_).trans (h2.2 a ha hn)
    rcases h3 a k with k | k
    · exact hn k
    · omega
  · rcases hm.1.held a ha with k | k
    · exact h3 a k
    · right; omega

/-- C77. Whatever earlier calls left in the pools and whichever slices the pools hand out, `GetAllowedRoles` returns
the list that the description with values gives (`C40`); it leaves the pools in order, and changes no array but those
handed to it - the array of the result is one of these, or new, and back in the pool. -/
theorem C77_allowedRoles (h : m.Pooled) (a : Allowed) :
    (w.allowedSlice m a).map (fun q => q.1.map q.2.strs.read) = w.getAllowedRoles a.o a.site a.rows a.n a.s ∧
    ∀ r m', w.allowedSlice m a = .ok (r, m') → m'.Pooled ∧ Frame a.picks m m' ∧
      ∀ sl, r = some sl → sl.arr ∈ m'.strs.free ∧ (a.picks.Hands sl.arr ∨ m.strs.arrs.length ≤ sl.arr) := by
  obtain ⟨h1, h2, h3⟩ := getAll_spec h a.picks
  obtain ⟨ao, asite, rows, an, as_, ac⟩ := a
  generalize ha : Allowed.mk ao asite rows an as_ ac = a at *
  have er : a.rows = rows := by rw [← ha]
  unfold allowedSlice getAllowedRoles
  rw [er]
  match rows with
  | none =>
    refine ⟨rfl, fun r m' e => ?_⟩
    cases e
    exact ⟨h, ⟨Nat.le_refl _, fun _ _ _ => rfl⟩, by simp⟩
  | some [] => exact ⟨rfl, fun r m' e => by cases e⟩
  | some (x :: xs) =>
    simp only
    cases hc : w.tenants.get x.tenant with
    | none => exact ⟨rfl, fun r m' e => by cases e⟩
    | some cc =>
      simp only [withT]
      cases ht : w.tobjs[cc]? with
      | none => exact ⟨rfl, fun r m' e => by cases e⟩
      | some t =>
        simp only
        split
        · refine ⟨rfl, fun r m' e => ?_⟩
          cases e
          obtain ⟨k1, k2, _, _⟩ := finish h (m' := m.getAll a.picks) ⟨.refl _, .refl _⟩ h1.oks h1.okt
          exact ⟨k1, k2, by simp⟩
        · cases hn : w.namespaceLists a.o a.site t a.n with
          | panic => exact ⟨rfl, fun r m' e => by cases e⟩
          | diverge => exact ⟨rfl, fun r m' e => by cases e⟩
          | ok nss =>
            obtain ⟨a1, a2, a3⟩ := Arrays.pushAll_spec (zero := []) (grow := a.picks.grow) nss.1 h1.oks (i := 0) (by rw [h1.slen]; omega)
            rw [h1.strs, h1.val.1] at a3
            have hl : 1 < ((m.getAll a.picks).strs.pushAll [] a.picks.grow 0 nss.1).regs.length := by
              rw [← Arrays.vals_length, a3]; simp
            obtain ⟨b1, b2, b3⟩ := Arrays.pushAll_spec (zero := []) (grow := a.picks.grow) nss.2 a1 (i := 1) hl
            rw [Arrays.val_of_vals (v := []) (i := 1) (by rw [a3]; rfl), a3] at b3
            have l1 : Locals { m.getAll a.picks with strs := ((m.getAll a.picks).strs.pushAll [] a.picks.grow 0 nss.1).pushAll [] a.picks.grow 1 nss.2 }
                nss.1 nss.2 [] [] [] [] := ⟨b1, h1.okt, by simpa using b3, h1.tps⟩
            obtain ⟨s1, s2⟩ := sort_step (c := a.picks) l1 (x :: xs)
            simp only [List.nil_append] at s2
            obtain ⟨q1, q2, q3, q4, q5⟩ := pick_spec (c := a.picks) s2 t a.n a.s
            have hmv := Moved.trans (m' := { m.getAll a.picks with strs := ((m.getAll a.picks).strs.pushAll [] a.picks.grow 0 nss.1).pushAll [] a.picks.grow 1 nss.2 })
              ⟨a2.trans b2, .refl _⟩ (s1.trans q1)
            obtain ⟨k1, k2, k3, k4⟩ := finish h hmv q2 q3
            simp only [Out.map_ok, Out.ok.injEq]
            refine ⟨?_, fun r m' e => ?_⟩
            · unfold pickRoles
              refine Eq.trans ?_ q5
              have : Arrays.read (Mem.putAll (Mem.pick a.picks (Mem.sortRows a.picks
                { m.getAll a.picks with strs := ((m.getAll a.picks).strs.pushAll [] a.picks.grow 0 nss.1).pushAll [] a.picks.grow 1 nss.2 } (x :: xs)) t a.n a.s).2).strs
                = Arrays.read (Mem.pick a.picks (Mem.sortRows a.picks
                { m.getAll a.picks with strs := ((m.getAll a.picks).strs.pushAll [] a.picks.grow 0 nss.1).pushAll [] a.picks.grow 1 nss.2 } (x :: xs)) t a.n a.s).2.strs := by
                funext sl
                unfold Arrays.read Arrays.arr
                rw [k3]
              rw [this]
            · rw [Prod.mk.injEq] at e
              obtain ⟨e1, e2⟩ := e
              subst e2
              refine ⟨k1, k2, fun sl hs => ?_⟩
              exact k4 _ (q4 sl (e1.trans hs))

/-! ## Results over time -/

/-- C77 as intended: a list returned by `GetAllowedRoles` stays what it was. -/
def C77_full : Prop := ∀ (ops : List V1Op) (w : V1) (m m' m'' : Mem) (a : Allowed) (sl : Slice) (as : List Allowed),
  V1Op.run {} ops = .ok w → m.Pooled → w.allowedSlice m a = .ok (some sl, m') → w.others m' as = .ok m'' →
  m''.strs.read sl = m'.strs.read sl

theorem others_spec {as : List Allowed} (h : m.Pooled) (e : w.others m as = .ok m') : m'.Pooled ∧
    m.strs.arrs.length ≤ m'.strs.arrs.length ∧
    ∀ a < m.strs.arrs.length, (∀ b ∈ as, ¬ b.picks.Hands a) → m'.strs.arr a = m.strs.arr a := by
  induction as generalizing m with
  | nil => cases e; exact ⟨h, Nat.le_refl _, fun _ _ _ => rfl⟩
  | cons b as ih =>
    obtain ⟨⟨r, m1⟩, h1, h2⟩ := Out.bind_eq_ok.1 e
    obtain ⟨k1, k2, _⟩ := (C77_allowedRoles h b).2 r m1 h1
    obtain ⟨g1, g2, g3⟩ := ih k1 h2
    have := k2.1
    refine ⟨g1, by omega, fun a ha hn => ?_⟩
    rw [g3 a (by omega) (fun c hc => hn c (by simp [hc])), k2.2 a ha (hn b (by simp))]

/-- C77. The list stays what it was as long as no later call is handed its array. -/
theorem C77_stable_partial (h : m.Pooled) {m'' : Mem} {a : Allowed} {sl : Slice} {as : List Allowed}
    (h1 : w.allowedSlice m a = .ok (some sl, m')) (h2 : w.others m' as = .ok m'') (hn : ∀ b ∈ as, ¬ b.picks.Hands sl.arr) :
    m''.strs.read sl = m'.strs.read sl := by
  obtain ⟨k1, k2, k3⟩ := (C77_allowedRoles h a).2 _ _ h1
  obtain ⟨_, _, g3⟩ := others_spec k1 h2
  unfold Arrays.read
  rw [g3 _ (k1.strs.2.2 _ (k3 sl rfl).1) hn]

/-! ## Decisions -/

variable {o : Ord} {fuel : Nat} {site : List Val} {p act : Str} {picks : Nat → Picks} {between : Nat → List Allowed}

/-- No call by others is handed the array of a result that is still to be copied. -/
def Quiet (w : V1) (o : Ord) (site : List Val) (p : Str) (picks : Nat → Picks) (between : Nat → List Allowed) : Nat → Mem → List Str → Prop
  | _, _, [] => True
  | i, m, t :: ts => ∀ l r m', w.principalRoles o (site ++ [.int 1, .int i]) t p = .ok l →
      w.allowedSlice m ⟨o, site ++ [.int 2, .int i], nilSlice l, [], [], picks i⟩ = .ok (r, m') →
      (∀ sl, r = some sl → ∀ b ∈ between i, ¬ b.picks.Hands sl.arr) ∧
      ∀ m'', w.others m' (between i) = .ok m'' → Quiet w o site p picks between (i + 1) m'' ts

theorem collect_quiet {ts : List Str} {i : Nat} (h : m.Pooled) (hq : Quiet w o site p picks between i m ts) {q : List Str × Mem}
    (e : w.collectRoles o site p picks between i m ts = .ok q) :
    Out.collectI (fun i t =>
      (w.principalRoles o (site ++ [.int 1, .int i]) t p).bind fun l =>
      (w.getAllowedRoles o (site ++ [.int 2, .int i]) (nilSlice l) [] []).map fun r => r.getD []) i ts = .ok q.1 := by
  induction ts generalizing i m q with
  | nil => cases e; rfl
  | cons t ts ih =>
    unfold collectRoles at e
    obtain ⟨l, h1, e⟩ := Out.bind_eq_ok.1 e
    obtain ⟨⟨r, m1⟩, h2, e⟩ := Out.bind_eq_ok.1 e
    obtain ⟨m2, h3, e⟩ := Out.bind_eq_ok.1 e
    obtain ⟨q', h4, rfl⟩ := Out.map_eq_ok.1 e
    obtain ⟨hn, hq'⟩ := hq l r m1 h1 h2
    obtain ⟨c1, c2⟩ := C77_allowedRoles (w := w) h ⟨o, site ++ [.int 2, .int i], nilSlice l, [], [], picks i⟩
    rw [h2] at c1
    simp only [Out.map_ok] at c1
    obtain ⟨d1, _, _⟩ := c2 r m1 h2
    obtain ⟨d2, _, _⟩ := others_spec d1 h3
    have hr : r.map m2.strs.read = r.map m1.strs.read := by
      cases r with
      | none => rfl
      | some sl => simp only [Option.map_some]; rw [C77_stable_partial h h2 h3 (hn sl rfl)]
    have := ih d2 (hq' m2 h3) h4
    simp only [Out.collectI, h1, Out.bind_ok, ← c1, Out.map_ok, this, hr]

/-- C77. If nobody is handed an array whose content is still to be read, activity requests are answered as if lists
were values. -/
theorem C77_activity_partial (h : m.Pooled) (hq : ∀ ts, Quiet w o site p picks between 0 m ts) {b : Bool}
    (e : w.authActivityMem o fuel site p act picks between m = .ok b) : w.authActivity o fuel site p act = .ok b := by
  unfold authActivityMem at e
  obtain ⟨ts, h1, e⟩ := Out.bind_eq_ok.1 e
  obtain ⟨q, h2, e⟩ := Out.bind_eq_ok.1 e
  unfold authActivity
  rw [h1, Out.bind_ok, collect_quiet h (hq ts) h2, Out.bind_ok]
  exact e

/-- C77. The same for requests with a group. -/
theorem C77_complex_partial {r : Request} {c : Picks} {as : List Allowed} (h : m.Pooled)
    (hn : ∀ a sl m', w.allowedSlice m a = .ok (some sl, m') → a.picks = c → ∀ b ∈ as, ¬ b.picks.Hands sl.arr) {b : Bool}
    (e : w.authComplexMem o fuel site p r c as m = .ok b) : w.authComplex o fuel site p r = .ok b := by
  unfold authComplexMem at e
  unfold authComplex
  cases hc : w.tenants.get (toStr r.tenant) with
  | none => rw [hc] at e; exact e
  | some cc =>
    rw [hc] at e
    simp only [withT] at e ⊢
    cases ht : w.tobjs[cc]? with
    | none => rw [ht] at e; cases e
    | some t =>
      rw [ht] at e
      simp only at e ⊢
      obtain ⟨l, h1, e⟩ := Out.bind_eq_ok.1 e
      rw [h1, Out.bind_ok]
      split
      · rename_i k; rw [if_pos k] at e; exact e
      · rename_i k; rw [if_neg k] at e
        split
        · rename_i k; rw [if_pos k] at e; exact e
        · rename_i k; rw [if_neg k] at e
          split
          · rename_i k; rw [if_pos k] at e; exact e
          · rename_i k; rw [if_neg k] at e
            obtain ⟨⟨q, m1⟩, h2, e⟩ := Out.bind_eq_ok.1 e
            obtain ⟨m2, h3, e⟩ := Out.bind_eq_ok.1 e
            have c1 := (C77_allowedRoles (w := w) h ⟨o, site ++ [.int 1], nilSlice l, toStr r.namespace_, toStr r.scope, c⟩).1
            rw [h2] at c1
            simp only [Out.map_ok] at c1
            have hr : q.map m2.strs.read = q.map m1.strs.read := by
              cases q with
              | none => rfl
              | some sl => simp only [Option.map_some]; rw [C77_stable_partial h h2 h3 (hn _ sl m1 h2 rfl)]
            simp only [← c1, Out.bind_ok, ← hr]
            exact e

theorem quiet_alone (ts : List Str) : ∀ (i : Nat) (m : Mem), Quiet w o site p picks (fun _ => []) i m ts := by
  induction ts with
  | nil => exact fun _ _ => trivial
  | cons t ts ih => exact fun i m l r m' _ _ => ⟨fun _ _ b hb => by simp at hb, fun m'' _ => ih _ _⟩

/-- C77. In a program with one goroutine decisions are as if lists were values, whatever the pools hold. -/
theorem C77_sequential (h : m.Pooled) {r : Request} {c : Picks} {b b' : Bool}
    (e : w.authActivityMem o fuel site p act picks (fun _ => []) m = .ok b) (e' : w.authComplexMem o fuel site p r c [] m = .ok b') :
    w.authActivity o fuel site p act = .ok b ∧ w.authComplex o fuel site p r = .ok b' :=
  ⟨C77_activity_partial h (fun ts => quiet_alone ts 0 m) e, C77_complex_partial h (fun _ _ _ _ _ b hb => by simp at hb) e'⟩

/-! ## A concrete case -/

/-- Tenant `t` with roles `r` above `q`; `p` has `r`, `x` has `q`. -/
def exPool : List V1Op := [
  .newTenant (str "t"), .addTenant 0,
  .role (.newRole (str "r")), .role (.newRole (str "q")), .addRole 0, .addRole 1,
  .role (.addPerm 0 (str "g") [⟨str "/a", str "GET"⟩]), .role (.addPerm 1 (str "g") [⟨str "/b", str "GET"⟩]),
  .role (.addDesc 0 [1]), .addPrincipal (str "p") 0, .addPrincipal (str "x") 1, .tAddRole 0 [0, 1],
  .tAddPrincipal 0 (str "p") [str "r"], .tAddPrincipal 0 (str "x") [str "q"]]

/-- `GetAllowedRoles` for the assignments of `p`, with new slices. -/
def exMine : Allowed := ⟨.fwd, [], some [{ tenant := str "t", principal := str "p", role := str "r", manage := true }], [], [], {}⟩

/-- `GetAllowedRoles` for the assignments of `x`, which is handed the array (number 3) of the first result. -/
def exTheirs : Allowed := ⟨.fwd, [], some [{ tenant := str "t", principal := str "x", role := str "q", manage := true }], [], [],
  { allowed := some 3 }⟩

/-- The same call with other slices. -/
def exElse : Allowed := { exTheirs with picks := { allowed := some 1 } }

theorem exPooled : ({} : Mem).Pooled := ⟨⟨rfl, .nil, by simp⟩, ⟨rfl, .nil, by simp⟩⟩

/-- `append` to a full slice moves it to a new array, else it writes in place. -/
example : (({ arrs := [[1, 2]], free := [], regs := [⟨0, 2⟩] } : Arrays Nat).pushAll 0 (fun _ => 1) 0 [3, 4]) =
    { arrs := [[1, 2], [1, 2, 3, 4]], free := [], regs := [⟨1, 4⟩] } := by decide

/-- A second call that reuses other arrays does not disturb the first result. -/
example : ∃ w, V1Op.run {} exPool = .ok w ∧ (w.allowedSlice {} exMine).Chk fun q =>
    q.1 = some ⟨3, 1⟩ ∧ q.2.strs.free = [3, 2, 1, 0] ∧ q.1.map q.2.strs.read = some [str "r"] ∧
    (w.allowedSlice q.2 exElse).Chk fun q' => q'.1 = some ⟨1, 1⟩ ∧ q'.1.map q'.2.strs.read = some [str "q"] ∧
      q.1.map q'.2.strs.read = some [str "r"] := Out.chk_ok (by decide +kernel)

/-- The hypotheses of `C77_complex_partial` are met with a call by others in between, and the answer is the right one. -/
example : ∃ w, V1Op.run {} exPool = .ok w ∧ w.authComplexMem .fwd 9 [] (str "p")
    { tenant := .str (str "t"), group := .str (str "g"), activity := .str (str "/b GET") } {} [exElse] {} = .ok false ∧
    w.authComplex .fwd 9 [] (str "p") { tenant := .str (str "t"), group := .str (str "g"), activity := .str (str "/b GET") } = .ok false ∧
    w.authComplex .fwd 9 [] (str "p") { tenant := .str (str "t"), group := .str (str "g"), activity := .str (str "/a GET") } = .ok true :=
  Out.chk_ok (by decide +kernel)

/-- C77 fails, also in a program with one goroutine: the first result changes when the second call is made. -/
theorem C77_counterexample : ∃ w, V1Op.run {} exPool = .ok w ∧ (w.allowedSlice {} exMine).Chk fun q =>
    q.1 = some ⟨3, 1⟩ ∧ q.2.strs.read ⟨3, 1⟩ = [str "r"] ∧
    (w.others q.2 [exTheirs]).Chk fun m => m.strs.read ⟨3, 1⟩ = [str "q"] := Out.chk_ok (by decide +kernel)

theorem C77_full_false : ¬ C77_full := by
  intro hf
  obtain ⟨w, h1, h2⟩ := C77_counterexample
  obtain ⟨⟨r, m'⟩, h2, h3, h4, h5⟩ := Out.chk_ok h2
  obtain ⟨m'', h7, h6⟩ := Out.chk_ok h5
  simp only at h3 h4 h7
  subst h3
  have := hf _ w _ m' m'' _ _ _ h1 exPooled h2 h7
  rw [h4, h6] at this
  exact absurd this (by decide)

/-- C77. A call for `x` in another goroutine grants `p` a request it is denied alone. -/
theorem C77_concurrent_counterexample : ∃ w, V1Op.run {} exPool = .ok w ∧
    w.authComplex .fwd 9 [] (str "p") { tenant := .str (str "t"), group := .str (str "g"), activity := .str (str "/b GET") } = .ok false ∧
    w.authComplexMem .fwd 9 [] (str "p") { tenant := .str (str "t"), group := .str (str "g"), activity := .str (str "/b GET") }
      {} [exTheirs] {} = .ok true := Out.chk_ok (by decide +kernel)

end V1
end Verif
