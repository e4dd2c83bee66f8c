import Verif.Lemmas.V2Role
import Verif.Spec.V2

namespace Verif
open Spec

theorem Out.loop_total {σ α : Type} {f : σ → α → Out σ} {P : σ → Prop} {xs : List α} {s : σ}
    (hf : ∀ s, ∀ x ∈ xs, P s → ∃ s', f s x = .ok s' ∧ P s') (h0 : P s) : ∃ s', Out.loop f s xs = .ok s' ∧ P s' := by
  induction xs generalizing s with
  | nil => exact ⟨s, rfl, h0⟩
  | cons x xs ih =>
    obtain ⟨s1, h1, h2⟩ := hf s x (List.mem_cons_self ..) h0
    rw [Out.loop, h1, Out.bind_ok]
    exact ih (fun s y hy => hf s y (List.mem_cons_of_mem _ hy)) h2

theorem Out.loop_append {σ : Type} {α : Type _} {f : σ → α → Out σ} {xs ys : List α} {s : σ} :
    Out.loop f s (xs ++ ys) = (Out.loop f s xs).bind fun s' => Out.loop f s' ys := by
  induction xs generalizing s with
  | nil => rfl
  | cons x xs ih =>
    simp only [List.cons_append, Out.loop]
    cases f s x <;> simp [ih]

/-- A loop in which every element returns or panics, and one panics, panics. -/
theorem Out.loop_panic {σ α : Type} {f : σ → α → Out σ} {P : σ → Prop} {xs : List α} {s : σ}
    (hf : ∀ s, ∀ x ∈ xs, P s → (∃ s', f s x = .ok s' ∧ P s') ∨ f s x = .panic) (h0 : P s)
    {a : α} (ha : a ∈ xs) (hp : ∀ s, P s → f s a = .panic) : Out.loop f s xs = .panic := by
  induction xs generalizing s with
  | nil => simp at ha
  | cons x xs ih =>
    unfold Out.loop
    rcases hf s x (List.mem_cons_self ..) h0 with ⟨s', h1, h2⟩ | h1
    · rcases List.mem_cons.1 ha with rfl | ha
      · rw [hp s h0]; rfl
      · rw [h1, Out.bind_ok]
        exact ih (fun s y hy => hf s y (List.mem_cons_of_mem _ hy)) h2 ha
    · rw [h1]; rfl

theorem exists_mem_cons {α : Type} {P : α → Prop} {a : α} {l : List α} : (∃ x ∈ a :: l, P x) ↔ P a ∨ ∃ x ∈ l, P x := by
  simp

namespace V2

/-- Invariant of the authorizer. -/
structure Inv (w : V2) : Prop where
  dag : w.dag.DInv
  tenantsWF : GoMap.WF w.tenants
  tenants : ∀ k c, (k, c) ∈ w.tenants → ∃ t, w.tobjs[c]? = some t ∧ t.id = k
  nsWF : ∀ t ∈ w.tobjs, GoMap.WF t.namespaces
  childrenWF : ∀ t ∈ w.tobjs, GoMap.WF t.children
  children : ∀ t ∈ w.tobjs, ∀ k c, (k, c) ∈ t.children → ∃ t', w.tobjs[c]? = some t' ∧ t'.id = k
  users : ∀ i, some i ∈ w.userRoles → ∃ u, w.prs[i]? = some u
  indexWF : GoMap.WF w.index
  indexWF2 : ∀ e ∈ w.index, GoMap.WF e.2
  indexed : ∀ p m t is, (p, m) ∈ w.index → (t, is) ∈ m → is ≠ [] ∧
    ∀ i ∈ is, ∃ u, w.prs[i]? = some u ∧ u.principal = p ∧ u.tenant = t

theorem withT_eq_ok {α : Type} {w : V2} {c : Nat} {f : T2 → Out α} {x : α} :
    w.withT c f = .ok x ↔ ∃ t, w.tobjs[c]? = some t ∧ f t = .ok x := by
  unfold withT
  cases w.tobjs[c]? <;> simp

theorem prAt_eq_ok {w : V2} {x : Option Nat} {u : PR} :
    w.prAt x = .ok u ↔ ∃ i, x = some i ∧ w.prs[i]? = some u := by
  unfold prAt
  cases x with
  | none => simp
  | some i => cases h : w.prs[i]? <;> simp [h]

variable {w w' : V2}

theorem mem_zipIdx_iff {x : Option Nat} {i : Nat} : (x, i) ∈ w.userRoles.zipIdx ↔ w.userRoles[i]? = some x := by
  rw [List.mem_zipIdx_iff_getElem?]

/-- Row `i` of the assignment list is `u`. -/
def RowAt (w : V2) (i : Nat) (u : PR) : Prop := ∃ j, w.userRoles[i]? = some (some j) ∧ w.prs[j]? = some u

theorem assigned_iff {u : PR} : Assigned w u ↔ ∃ i, RowAt w i u := by
  unfold Assigned RowAt
  constructor
  · rintro ⟨j, h1, h2⟩
    obtain ⟨i, hi⟩ := List.mem_iff_getElem?.1 h1
    exact ⟨i, j, hi, h2⟩
  · rintro ⟨i, j, h1, h2⟩
    exact ⟨j, List.mem_of_getElem? h1, h2⟩

theorem live_iff {u : PR} {now : Int} : u.expired now = false ↔ Live u now := by
  unfold PR.expired Live
  cases u.expiry with
  | none => simp
  | some e => simp

/-! ### Traversal -/

section
variable {σ : Type} {e : Env} {site : List Val} {p : Str} {visit : Str → σ → Out σ}

/-- What a traversal started below `c` does. -/
def TR (w : V2) (p : Str) (visit : Str → σ → Out σ) (c : Nat) (st st' : List Str × σ) : Prop :=
  ∃ T, st'.1 = st.1 ++ T ∧ (∀ x ∈ T, x ∉ st.1) ∧ T.Nodup ∧ Out.loop (fun s x => visit x s) st.2 T = .ok st'.2 ∧
    ∀ x ∈ T, ∃ c' t', Managed w p c c' ∧ w.tobjs[c']? = some t' ∧ t'.id = x ∧
      (ManagesChildren w p x → ∀ kd ∈ t'.children, kd.1 ∈ st'.1)

theorem TR.refl {c : Nat} {st : List Str × σ} : TR w p visit c st st :=
  ⟨[], by simp, by simp, by simp, rfl, by simp⟩

theorem TR.sub {c : Nat} {st st' : List Str × σ} (h : TR w p visit c st st') : ∀ x ∈ st.1, x ∈ st'.1 := by
  obtain ⟨T, h1, _⟩ := h
  rw [h1]; simp +contextual

theorem TR.trans {c : Nat} {st st' st'' : List Str × σ} (h : TR w p visit c st st') (h' : TR w p visit c st' st'') :
    TR w p visit c st st'' := by
  have hs := h'.sub
  obtain ⟨T, h1, h2, h3, h4, h5⟩ := h
  obtain ⟨T', g1, g2, g3, g4, g5⟩ := h'
  refine ⟨T ++ T', by rw [g1, h1, List.append_assoc], ?_, ?_, ?_, ?_⟩
  · intro x hx
    rcases List.mem_append.1 hx with hx | hx
    · exact h2 x hx
    · exact fun hn => g2 x hx (by rw [h1]; simp [hn])
  · rw [List.nodup_append]
    exact ⟨h3, g3, fun a ha b hb e => g2 b hb (by rw [h1]; simp [← e, ha])⟩
  · rw [Out.loop_append, h4]; exact g4
  · intro x hx
    rcases List.mem_append.1 hx with hx | hx
    · obtain ⟨c', t', k1, k2, k3, k4⟩ := h5 x hx
      exact ⟨c', t', k1, k2, k3, fun hm kd hk => hs _ (k4 hm kd hk)⟩
    · exact g5 x hx

theorem managed_trans {a b c : Nat} (h : Managed w p a b) (h' : Managed w p b c) : Managed w p a c := by
  induction h' with
  | self => exact h
  | child _ h2 h3 h4 ih => exact .child ih h2 h3 h4

theorem TR.lift {c d : Nat} {st st' : List Str × σ} (h : TR w p visit d st st') (hd : Managed w p c d) :
    TR w p visit c st st' := by
  obtain ⟨T, h1, h2, h3, h4, h5⟩ := h
  refine ⟨T, h1, h2, h3, h4, fun x hx => ?_⟩
  obtain ⟨c', t', k1, k2⟩ := h5 x hx
  exact ⟨c', t', managed_trans hd k1, k2⟩

theorem children_loop (inv : Inv w) {n : Nat} {c : Nat} {t : T2} (ht : w.tobjs[c]? = some t)
    (hm : ManagesChildren w p t.id)
    (ih : ∀ c st st', w.traverse e site p visit n c st = .ok st' →
      TR w p visit c st st' ∧ ∀ t, w.tobjs[c]? = some t → t.id ∈ st'.1)
    {L : List (Str × Nat)} (hL : ∀ kd ∈ L, kd ∈ t.children) {st st' : List Str × σ}
    (h : Out.loop (fun st kd => w.traverse e site p visit n kd.2 st) st L = .ok st') :
    TR w p visit c st st' ∧ ∀ kd ∈ L, kd.1 ∈ st'.1 := by
  induction L generalizing st with
  | nil => cases h; exact ⟨.refl, by simp⟩
  | cons kd L ihL =>
    obtain ⟨st1, h1, h2⟩ := Out.bind_eq_ok.1 h
    obtain ⟨k, d⟩ := kd
    have hk := hL _ (List.mem_cons_self ..)
    obtain ⟨a1, a2⟩ := ih _ _ _ h1
    obtain ⟨b1, b2⟩ := ihL (fun kd hkd => hL kd (List.mem_cons_of_mem _ hkd)) h2
    obtain ⟨t', h3, h4⟩ := inv.children t (List.mem_of_getElem? ht) k d hk
    refine ⟨(a1.lift (.child .self ht hm hk)).trans b1, fun kd' hkd' => ?_⟩
    rcases List.mem_cons.1 hkd' with rfl | hkd'
    · exact b1.sub _ (h4 ▸ a2 t' h3)
    · exact b2 kd' hkd'

theorem traverse_spec (inv : Inv w) {n c : Nat} {st st' : List Str × σ}
    (h : w.traverse e site p visit n c st = .ok st') :
    TR w p visit c st st' ∧ ∀ t, w.tobjs[c]? = some t → t.id ∈ st'.1 := by
  induction n generalizing c st st' with
  | zero => cases h
  | succ n ih =>
    unfold traverse at h
    obtain ⟨t, ht, h⟩ := withT_eq_ok.1 h
    split at h
    · rename_i hk
      cases h
      exact ⟨.refl, fun t' ht' => by rw [ht] at ht'; cases ht'; exact hk⟩
    · rename_i hk
      obtain ⟨s1, h1, h2⟩ := Out.bind_eq_ok.1 h
      have rows : ∀ (R : List (Option Nat × Nat)) (st st' : List Str × σ), (∀ xi ∈ R, xi.1 ∈ w.userRoles) →
          Out.loop (fun st xi => (w.prAt xi.1).bind fun u =>
            if u.principal = p ∧ u.tenant = t.id ∧ u.manage = true then
              Out.loop (fun st kd => w.traverse e site p visit n kd.2 st) st
                (e.o.ord (site ++ [.str t.id, .int xi.2]) _ t.children)
            else .ok st) st R = .ok st' →
          TR w p visit c st st' ∧ ∀ xi ∈ R, ∀ u, w.prAt xi.1 = .ok u → u.principal = p → u.tenant = t.id →
            u.manage = true → ∀ kd ∈ t.children, kd.1 ∈ st'.1 := by
        intro R
        induction R with
        | nil => intro st st' _ h; cases h; exact ⟨.refl, by simp⟩
        | cons xi R ihR =>
          intro st st' hR h
          obtain ⟨st1, h3, h4⟩ := Out.bind_eq_ok.1 h
          obtain ⟨b1, b2⟩ := ihR st1 st' (fun xi hxi => hR xi (List.mem_cons_of_mem _ hxi)) h4
          obtain ⟨u, hu, h3⟩ := Out.bind_eq_ok.1 h3
          split at h3
          · rename_i hc
            obtain ⟨i, hxi, hu'⟩ := prAt_eq_ok.1 hu
            have hm : ManagesChildren w p t.id :=
              ⟨u, ⟨i, hxi ▸ hR _ (List.mem_cons_self ..), hu'⟩, hc.1, hc.2.1, hc.2.2⟩
            obtain ⟨a1, a2⟩ := children_loop inv ht hm (fun c st st' => ih) (fun kd hkd => Ord.mem_ord.1 hkd) h3
            refine ⟨a1.trans b1, fun xi' hxi' => ?_⟩
            rcases List.mem_cons.1 hxi' with rfl | hxi'
            · exact fun _ _ _ _ _ kd hkd => b1.sub _ (a2 kd (Ord.mem_ord.2 hkd))
            · exact b2 xi' hxi'
          · rename_i hc
            cases h3
            refine ⟨b1, fun xi' hxi' => ?_⟩
            rcases List.mem_cons.1 hxi' with rfl | hxi'
            · intro u' hu' g1 g2 g3
              rw [hu] at hu'; cases hu'
              exact absurd ⟨g1, g2, g3⟩ hc
            · exact b2 xi' hxi'
      obtain ⟨a1, a2⟩ := rows _ _ _ (fun xi hxi => List.mem_of_getElem? (mem_zipIdx_iff.1 hxi)) h2
      have hin : t.id ∈ st'.1 := a1.sub _ (by simp)
      refine ⟨?_, fun t' ht' => by rw [ht] at ht'; cases ht'; exact hin⟩
      obtain ⟨T, g1, g2, g3, g4, g5⟩ := a1
      refine ⟨t.id :: T, by rw [g1]; simp, ?_, ?_, ?_, ?_⟩
      · intro x hx
        rcases List.mem_cons.1 hx with rfl | hx
        · exact hk
        · exact fun hn => g2 x hx (by simp [hn])
      · rw [List.nodup_cons]
        exact ⟨fun hn => g2 _ hn (by simp), g3⟩
      · rw [Out.loop, h1]; exact g4
      · intro x hx
        rcases List.mem_cons.1 hx with rfl | hx
        · refine ⟨c, t, .self, ht, rfl, ?_⟩
          rintro ⟨u, hu, q1, q2, q3⟩ kd hkd
          obtain ⟨i, j, r1, r2⟩ := assigned_iff.1 hu
          exact a2 (some j, i) (mem_zipIdx_iff.2 r1) u (prAt_eq_ok.2 ⟨j, rfl, r2⟩) q1 q2 q3 kd hkd
        · exact g5 x hx

/-- A complete traversal visits exactly the covered tenants. -/
theorem traverse_visits (inv : Inv w) {n c : Nat} (tw : NoTwins w p c)
    {s : σ} {st' : List Str × σ} (h : w.traverse e site p visit n c ([], s) = .ok st') :
    Out.loop (fun s x => visit x s) s st'.1 = .ok st'.2 ∧ ∀ x, x ∈ st'.1 ↔ Covers w p c x := by
  obtain ⟨⟨T, h1, h2, h3, h4, h5⟩, h6⟩ := traverse_spec inv h
  rw [List.nil_append] at h1
  subst h1
  refine ⟨h4, fun x => ⟨fun hx => ?_, ?_⟩⟩
  · obtain ⟨c', t', k1, k2, k3, _⟩ := h5 x hx
    exact ⟨c', t', k1, k2, k3⟩
  · have all : ∀ c', Managed w p c c' → ∀ t', w.tobjs[c']? = some t' → t'.id ∈ st'.1 := by
      intro c' hm
      induction hm with
      | self => exact fun t' ht' => h6 t' ht'
      | child g1 g2 g3 g4 ih =>
        intro t' ht'
        have hx := ih _ g2
        obtain ⟨c2, t2, k1, k2, k3, k4⟩ := h5 _ hx
        have := tw _ _ _ _ k1 g1 k2 g2 k3
        subst this
        rw [g2] at k2; cases k2
        obtain ⟨t3, l1, l2⟩ := inv.children _ (List.mem_of_getElem? g2) _ _ g4
        rw [ht'] at l1; cases l1
        rw [l2]; exact k4 g3 _ g4
    rintro ⟨c', t', k1, k2, rfl⟩
    exact all c' k1 t' k2

/-- Without uniqueness of ids: every visited tenant is covered. -/
theorem traverse_sound (inv : Inv w) {n c : Nat} {s : σ} {st' : List Str × σ}
    (h : w.traverse e site p visit n c ([], s) = .ok st') :
    Out.loop (fun s x => visit x s) s st'.1 = .ok st'.2 ∧ (∀ x ∈ st'.1, Covers w p c x) ∧
      ∀ t, w.tobjs[c]? = some t → t.id ∈ st'.1 := by
  obtain ⟨⟨T, h1, h2, h3, h4, h5⟩, h6⟩ := traverse_spec inv h
  rw [List.nil_append] at h1
  subst h1
  refine ⟨h4, fun x hx => ?_, h6⟩
  obtain ⟨c', t', k1, k2, k3, _⟩ := h5 x hx
  exact ⟨c', t', k1, k2, k3⟩

/-- Tenant ids not yet checked. -/
def unchecked (w : V2) (K : List Str) : Nat := Dag.unvisited (w.tobjs.map (·.id)) K

theorem unchecked_le (K : List Str) : w.unchecked K ≤ w.tobjs.length := by
  unfold unchecked Dag.unvisited
  exact Nat.le_trans (List.length_filter_le ..) (by simp)

theorem traverse_total (inv : Inv w) (hnil : none ∉ w.userRoles) {P : σ → Prop}
    (hv : ∀ x s, P s → ∃ s', visit x s = .ok s' ∧ P s') {n c : Nat} (hc : ∃ t, w.tobjs[c]? = some t)
    {st : List Str × σ} (h0 : P st.2) (h : w.unchecked st.1 < n) :
    ∃ st', w.traverse e site p visit n c st = .ok st' ∧ P st'.2 ∧ ∀ x ∈ st.1, x ∈ st'.1 := by
  induction n generalizing c st with
  | zero => omega
  | succ n ih =>
    obtain ⟨t, ht⟩ := hc
    unfold traverse withT
    rw [ht]
    show ∃ st', (if t.id ∈ st.1 then _ else _) = _ ∧ _
    split
    · exact ⟨st, rfl, h0, fun x h => h⟩
    · rename_i hk
      obtain ⟨s1, h1, h2⟩ := hv t.id st.2 h0
      rw [h1, Out.bind_ok]
      have hlt : w.unchecked (st.1 ++ [t.id]) < w.unchecked st.1 :=
        Dag.unvisited_lt (by simp +contextual) (List.mem_map.2 ⟨t, List.mem_of_getElem? ht, rfl⟩) hk (by simp)
      let Q : List Str × σ → Prop := fun s => P s.2 ∧ ∀ x ∈ st.1 ++ [t.id], x ∈ s.1
      have hQ : ∀ s : List Str × σ, Q s → w.unchecked s.1 < n := fun s hs => by
        have := Dag.unvisited_mono (N := w.tobjs.map (·.id)) hs.2
        unfold unchecked at *; omega
      obtain ⟨st', g1, g2⟩ := Out.loop_total (P := Q) (xs := w.userRoles.zipIdx) (s := (st.1 ++ [t.id], s1))
        (f := fun st xi => (w.prAt xi.1).bind fun u =>
            if u.principal = p ∧ u.tenant = t.id ∧ u.manage = true then
              Out.loop (fun st kd => w.traverse e site p visit n kd.2 st) st
                (e.o.ord (site ++ [.str t.id, .int xi.2]) _ t.children)
            else .ok st) (by
          rintro s ⟨x, i⟩ hx hs
          have hx := List.mem_of_getElem? (mem_zipIdx_iff.1 hx)
          cases x with
          | none => exact absurd hx hnil
          | some j =>
            obtain ⟨u, hu⟩ := inv.users j hx
            simp only [prAt_eq_ok.2 ⟨j, rfl, hu⟩, Out.bind_ok]
            split
            · refine Out.loop_total (P := Q) (fun s kd hkd hs => ?_) hs
              obtain ⟨t', l1, _⟩ := inv.children t (List.mem_of_getElem? ht) kd.1 kd.2 (Ord.mem_ord.1 hkd)
              obtain ⟨s', m1, m2, m3⟩ := ih (c := kd.2) (st := s) ⟨t', l1⟩ hs.1 (hQ s hs)
              exact ⟨s', m1, m2, fun x hx => m3 x (hs.2 x hx)⟩
            · exact ⟨s, rfl, hs⟩) ⟨h2, fun x hx => hx⟩
      exact ⟨st', g1, g2.1, fun x hx => g2.2 x (by simp [hx])⟩

/-- A visit that panics makes the whole traversal panic. -/
theorem traverse_panic {n c : Nat} {t : T2} (ht : w.tobjs[c]? = some t) {s : σ} (hv : visit t.id s = .panic) :
    w.traverse e site p visit (n + 1) c ([], s) = .panic := by
  unfold traverse withT
  rw [ht]
  show (if t.id ∈ [] then _ else _) = _
  rw [if_neg (by simp), hv]; rfl

end

/-! ### Permissions -/

/-- The graph differs from that of `w` only by cached sets that do not change what roles resolve to. -/
structure DagOK (w : V2) (emit : R2 → List Str) (d : Dag) : Prop where
  inv : d.DInv
  same : w.dag.SameBut d
  res : ∀ r x, d.Resolves emit r x ↔ w.dag.Resolves emit r x
  mono : ∀ e ∈ w.dag.resolved, e ∈ d.resolved

theorem DagOK.refl (inv : Inv w) (emit : R2 → List Str) : DagOK w emit w.dag :=
  ⟨inv.dag, .refl _, fun _ _ => Iff.rfl, fun _ h => h⟩

theorem DagOK.step {emit : R2 → List Str} {d d' : Dag} (h : DagOK w emit d) {fuel : Nat} {r : Str} {s : List Str}
    (hr : d.resolve emit fuel r = .ok (s, d')) : DagOK w emit d' ∧ ∀ x, x ∈ s ↔ w.dag.Resolves emit r x := by
  obtain ⟨h1, h2, h3, h4, h5⟩ := Dag.resolve_spec h.inv hr
  exact ⟨⟨h2, h.same.trans h3, fun r x => (h4 r x).trans (h.res r x), fun e he => h5 e (h.mono e he)⟩,
    fun x => (h1 x).trans (h.res r x)⟩

/-- Iterations needed to resolve a role. -/
def roleFuel (w : V2) : Nat := 1 + Dag.pending w.dag.edges []

theorem DagOK.total {emit : R2 → List Str} {d : Dag} (h : DagOK w emit d) {fuel : Nat} (hf : w.roleFuel ≤ fuel) (r : Str) :
    ∃ y, d.resolve emit fuel r = .ok y :=
  Dag.resolve_total h.inv emit (by rw [h.same.2.2]; exact hf) r

section
variable {e : Env} {fuel : Nat} {site : List Val} {p ns sc : Str}

/-- Row `i` is usable in tenant `tid`. -/
def Usable (e : Env) (site : List Val) (p ns tid : Str) (i : Nat) (u : PR) : Prop :=
  u.principal = p ∧ u.tenant = tid ∧ Live u (e.now (site ++ [.str tid, .int i])) ∧ (u.namespace_ = [] ∨ u.namespace_ = ns)

theorem permRow_spec {s s' : PAcc} {tid : Str} {x : Option Nat} {i : Nat} (hd : DagOK w (·.perms) s.dag)
    (h : w.permRow e fuel site p ns sc tid s (x, i) = .ok s') :
    ∃ u, w.prAt x = .ok u ∧ DagOK w (·.perms) s'.dag ∧
      (∀ y, y ∈ s'.scopedP ↔ y ∈ s.scopedP ∨ (Usable e site p ns tid i u ∧ u.scope = sc ∧ w.dag.Resolves (·.perms) u.role y)) ∧
      (∀ y, y ∈ s'.globalP ↔ y ∈ s.globalP ∨
        (Usable e site p ns tid i u ∧ u.scope ≠ sc ∧ u.scope = [] ∧ w.dag.Resolves (·.perms) u.role y)) := by
  obtain ⟨u, hu, h⟩ := Out.bind_eq_ok.1 h
  refine ⟨u, hu, ?_⟩
  split at h
  · rename_i hc
    cases h
    have : ¬ Usable e site p ns tid i u := fun hU => hc.elim (fun h => h hU.1) (fun h => h hU.2.1)
    exact ⟨hd, by simp [this], by simp [this]⟩
  · rename_i hc
    simp only [ne_eq, not_or, Decidable.not_not] at hc
    split at h
    · rename_i hx
      cases h
      have : ¬ Usable e site p ns tid i u := fun hU => by rw [live_iff.2 hU.2.2.1] at hx; cases hx
      exact ⟨hd, by simp [this], by simp [this]⟩
    · rename_i hx
      split at h
      · rename_i hn
        have hU : Usable e site p ns tid i u := ⟨hc.1, hc.2, live_iff.1 (by simpa using hx), hn⟩
        obtain ⟨⟨perms, d'⟩, h1, h2⟩ := Out.map_eq_ok.1 h
        obtain ⟨k1, k2⟩ := hd.step h1
        simp only at h2
        split at h2
        · rename_i hs
          subst h2
          exact ⟨k1, fun y => by simp [hU, hs, k2], fun y => by simp [hs]⟩
        · rename_i hs
          split at h2
          · rename_i hs2
            subst h2
            exact ⟨k1, fun y => by simp [hs], fun y => by simp only [mem_addStrs, k2, hU, hs2, true_and]; simp [show ¬ [] = sc from hs2 ▸ hs]⟩
          · rename_i hs2
            subst h2
            exact ⟨k1, fun y => by simp [hs], fun y => by simp [hs2]⟩
      · rename_i hn
        cases h
        have : ¬ Usable e site p ns tid i u := fun hU => hn hU.2.2.2
        exact ⟨hd, by simp [this], by simp [this]⟩

theorem permRows_spec {s s' : PAcc} {tid : Str} {L : List (Option Nat × Nat)} (hd : DagOK w (·.perms) s.dag)
    (h : Out.loop (w.permRow e fuel site p ns sc tid) s L = .ok s') :
    DagOK w (·.perms) s'.dag ∧
      (∀ y, y ∈ s'.scopedP ↔ y ∈ s.scopedP ∨ ∃ xi ∈ L, ∃ u, w.prAt xi.1 = .ok u ∧ Usable e site p ns tid xi.2 u ∧
        u.scope = sc ∧ w.dag.Resolves (·.perms) u.role y) ∧
      (∀ y, y ∈ s'.globalP ↔ y ∈ s.globalP ∨ ∃ xi ∈ L, ∃ u, w.prAt xi.1 = .ok u ∧ Usable e site p ns tid xi.2 u ∧
        u.scope ≠ sc ∧ u.scope = [] ∧ w.dag.Resolves (·.perms) u.role y) := by
  induction L generalizing s with
  | nil => cases h; exact ⟨hd, by simp, by simp⟩
  | cons xi L ih =>
    obtain ⟨s1, h1, h2⟩ := Out.bind_eq_ok.1 h
    obtain ⟨x, i⟩ := xi
    obtain ⟨u, hu, k1, k2, k3⟩ := permRow_spec hd h1
    obtain ⟨m1, m2, m3⟩ := ih k1 h2
    refine ⟨m1, fun y => ?_, fun y => ?_⟩
    · rw [m2, k2, exists_mem_cons, or_assoc]
      simp only [hu, Out.ok.injEq, exists_eq_left']
    · rw [m3, k3, exists_mem_cons, or_assoc]
      simp only [hu, Out.ok.injEq, exists_eq_left']

theorem row_iff {Q : Nat → PR → Prop} :
    (∃ xi ∈ w.userRoles.zipIdx, ∃ u, w.prAt xi.1 = .ok u ∧ Q xi.2 u) ↔ ∃ i u, RowAt w i u ∧ Q i u := by
  constructor
  · rintro ⟨⟨x, i⟩, h1, u, h2, h3⟩
    obtain ⟨j, rfl, h4⟩ := prAt_eq_ok.1 h2
    exact ⟨i, u, ⟨j, mem_zipIdx_iff.1 h1, h4⟩, h3⟩
  · rintro ⟨i, u, ⟨j, h1, h2⟩, h3⟩
    exact ⟨(some j, i), mem_zipIdx_iff.2 h1, u, prAt_eq_ok.2 ⟨j, rfl, h2⟩, h3⟩

/-- Permissions collected in the tenants `T`. -/
theorem permVisits_spec {s s' : PAcc} {T : List Str} (hd : DagOK w (·.perms) s.dag)
    (h : Out.loop (fun s tid => Out.loop (w.permRow e fuel site p ns sc tid) s w.userRoles.zipIdx) s T = .ok s') :
    DagOK w (·.perms) s'.dag ∧
      (∀ y, y ∈ s'.scopedP ↔ y ∈ s.scopedP ∨ ∃ tid ∈ T, ∃ i u, RowAt w i u ∧ Usable e site p ns tid i u ∧
        u.scope = sc ∧ w.dag.Resolves (·.perms) u.role y) ∧
      (∀ y, y ∈ s'.globalP ↔ y ∈ s.globalP ∨ ∃ tid ∈ T, ∃ i u, RowAt w i u ∧ Usable e site p ns tid i u ∧
        u.scope ≠ sc ∧ u.scope = [] ∧ w.dag.Resolves (·.perms) u.role y) := by
  induction T generalizing s with
  | nil => cases h; exact ⟨hd, by simp, by simp⟩
  | cons tid T ih =>
    obtain ⟨s1, h1, h2⟩ := Out.bind_eq_ok.1 h
    obtain ⟨k1, k2, k3⟩ := permRows_spec hd h1
    obtain ⟨m1, m2, m3⟩ := ih k1 h2
    refine ⟨m1, fun y => ?_, fun y => ?_⟩
    · rw [m2, k2, exists_mem_cons, or_assoc, row_iff (Q := fun i u => Usable e site p ns tid i u ∧
        u.scope = sc ∧ w.dag.Resolves (·.perms) u.role y)]
    · rw [m3, k3, exists_mem_cons, or_assoc, row_iff (Q := fun i u => Usable e site p ns tid i u ∧
        u.scope ≠ sc ∧ u.scope = [] ∧ w.dag.Resolves (·.perms) u.role y)]

theorem roleRow_spec {s s' : RAcc} {tid : Str} {x : Option Nat} {i : Nat} (hd : DagOK w (fun r => [r.name]) s.dag)
    (h : w.roleRow e fuel site p ns tid s (x, i) = .ok s') :
    ∃ u, w.prAt x = .ok u ∧ DagOK w (fun r => [r.name]) s'.dag ∧
      (∀ y, y ∈ s'.roles ↔ y ∈ s.roles ∨ (Usable e site p ns tid i u ∧ u.role ≠ [] ∧
        (y = u.role ∨ w.dag.Resolves (fun r => [r.name]) u.role y))) := by
  obtain ⟨u, hu, h⟩ := Out.bind_eq_ok.1 h
  refine ⟨u, hu, ?_⟩
  split at h
  · rename_i hc
    cases h
    have : ¬ Usable e site p ns tid i u := fun hU => hc.elim (fun h => h hU.1) (fun h => h hU.2.1)
    exact ⟨hd, by simp [this]⟩
  · rename_i hc
    simp only [ne_eq, not_or, Decidable.not_not] at hc
    split at h
    · rename_i hx
      cases h
      have : ¬ Usable e site p ns tid i u := fun hU => by rw [live_iff.2 hU.2.2.1] at hx; cases hx
      exact ⟨hd, by simp [this]⟩
    · rename_i hx
      split at h
      · rename_i hn
        have hU : Usable e site p ns tid i u := ⟨hc.1, hc.2, live_iff.1 (by simpa using hx), hn.1⟩
        obtain ⟨⟨rs, d'⟩, h1, h2⟩ := Out.map_eq_ok.1 h
        obtain ⟨k1, k2⟩ := hd.step h1
        subst h2
        refine ⟨k1, fun y => ?_⟩
        simp only [mem_addStrs, mem_addStr, k2, hU, true_and, or_assoc]
        simp [hn.2]
      · rename_i hn
        cases h
        refine ⟨hd, fun y => ⟨.inl, fun h => h.elim id fun h => absurd ⟨h.1.2.2.2, h.2.1⟩ hn⟩⟩

theorem roleVisits_spec {s s' : RAcc} {T : List Str} (hd : DagOK w (fun r => [r.name]) s.dag)
    (h : Out.loop (fun s tid => Out.loop (w.roleRow e fuel site p ns tid) s w.userRoles.zipIdx) s T = .ok s') :
    DagOK w (fun r => [r.name]) s'.dag ∧
      (∀ y, y ∈ s'.roles ↔ y ∈ s.roles ∨ ∃ tid ∈ T, ∃ i u, RowAt w i u ∧ Usable e site p ns tid i u ∧
        u.role ≠ [] ∧ (y = u.role ∨ w.dag.Resolves (fun r => [r.name]) u.role y)) := by
  have rows : ∀ (tid : Str) (L : List (Option Nat × Nat)) (s s' : RAcc), DagOK w (fun r => [r.name]) s.dag →
      Out.loop (w.roleRow e fuel site p ns tid) s L = .ok s' → DagOK w (fun r => [r.name]) s'.dag ∧
      (∀ y, y ∈ s'.roles ↔ y ∈ s.roles ∨ ∃ xi ∈ L, ∃ u, w.prAt xi.1 = .ok u ∧ Usable e site p ns tid xi.2 u ∧
        u.role ≠ [] ∧ (y = u.role ∨ w.dag.Resolves (fun r => [r.name]) u.role y)) := by
    intro tid L
    induction L with
    | nil => intro s s' hd h; cases h; exact ⟨hd, by simp⟩
    | cons xi L ih =>
      intro s s' hd h
      obtain ⟨s1, h1, h2⟩ := Out.bind_eq_ok.1 h
      obtain ⟨x, i⟩ := xi
      obtain ⟨u, hu, k1, k2⟩ := roleRow_spec hd h1
      obtain ⟨m1, m2⟩ := ih _ _ k1 h2
      refine ⟨m1, fun y => ?_⟩
      rw [m2, k2, exists_mem_cons, or_assoc]
      simp only [hu, Out.ok.injEq, exists_eq_left']
  induction T generalizing s with
  | nil => cases h; exact ⟨hd, by simp⟩
  | cons tid T ih =>
    obtain ⟨s1, h1, h2⟩ := Out.bind_eq_ok.1 h
    obtain ⟨k1, k2⟩ := rows _ _ _ _ hd h1
    obtain ⟨m1, m2⟩ := ih k1 h2
    refine ⟨m1, fun y => ?_⟩
    rw [m2, k2, exists_mem_cons, or_assoc, row_iff (Q := fun i u => Usable e site p ns tid i u ∧
        u.role ≠ [] ∧ (y = u.role ∨ w.dag.Resolves (fun r => [r.name]) u.role y))]

theorem permRow_total (inv : Inv w) (hf : w.roleFuel ≤ fuel) {tid : Str} {x : Option Nat} {i : Nat} (hx : x ∈ w.userRoles)
    (hnil : x ≠ none) {s : PAcc} (hd : DagOK w (·.perms) s.dag) :
    ∃ s', w.permRow e fuel site p ns sc tid s (x, i) = .ok s' ∧ DagOK w (·.perms) s'.dag := by
  cases x with
  | none => exact absurd rfl hnil
  | some j =>
    obtain ⟨u, hu⟩ := inv.users j hx
    have hex : ∃ s', w.permRow e fuel site p ns sc tid s (some j, i) = .ok s' := by
      unfold permRow
      simp only [prAt_eq_ok.2 ⟨j, rfl, hu⟩, Out.bind_ok]
      split
      · exact ⟨_, rfl⟩
      · split
        · exact ⟨_, rfl⟩
        · split
          · obtain ⟨y, hy⟩ := hd.total hf u.role
            unfold Dag.resolvePermissions
            rw [hy]; exact ⟨_, rfl⟩
          · exact ⟨_, rfl⟩
    obtain ⟨s', h⟩ := hex
    obtain ⟨_, _, h2, _⟩ := permRow_spec hd h
    exact ⟨s', h, h2⟩

theorem roleRow_total (inv : Inv w) (hf : w.roleFuel ≤ fuel) {tid : Str} {x : Option Nat} {i : Nat} (hx : x ∈ w.userRoles)
    (hnil : x ≠ none) {s : RAcc} (hd : DagOK w (fun r => [r.name]) s.dag) :
    ∃ s', w.roleRow e fuel site p ns tid s (x, i) = .ok s' ∧ DagOK w (fun r => [r.name]) s'.dag := by
  cases x with
  | none => exact absurd rfl hnil
  | some j =>
    obtain ⟨u, hu⟩ := inv.users j hx
    have hex : ∃ s', w.roleRow e fuel site p ns tid s (some j, i) = .ok s' := by
      unfold roleRow
      simp only [prAt_eq_ok.2 ⟨j, rfl, hu⟩, Out.bind_ok]
      split
      · exact ⟨_, rfl⟩
      · split
        · exact ⟨_, rfl⟩
        · split
          · obtain ⟨y, hy⟩ := hd.total hf u.role
            unfold Dag.resolveChildRoles
            rw [hy]; exact ⟨_, rfl⟩
          · exact ⟨_, rfl⟩
    obtain ⟨s', h⟩ := hex
    obtain ⟨_, _, h2, _⟩ := roleRow_spec hd h
    exact ⟨s', h, h2⟩

end
end V2
end Verif
