import Verif.Lemmas.V2Auth

namespace Verif
open Spec
namespace V2
variable {w w' : V2} {e : Env} {fuel : Nat} {site : List Val}

/-! ### Exact decisions -/

theorem usable_counts {now : Int} (st : Steady w e now) {p ns tid : Str} {i : Nat} {u : PR} (h : RowAt w i u) :
    Usable e site p ns tid i u ↔ Counts w p ns tid now u := by
  have ha : Assigned w u := assigned_iff.2 ⟨i, h⟩
  unfold Usable Counts
  rw [st u ha]
  simp [ha]

theorem rows_counts {now : Int} (st : Steady w e now) {p ns tid : Str} {Q : PR → Prop} :
    (∃ i u, RowAt w i u ∧ Usable e site p ns tid i u ∧ Q u) ↔ ∃ u, Counts w p ns tid now u ∧ Q u := by
  constructor
  · rintro ⟨i, u, h1, h2, h3⟩
    exact ⟨u, (usable_counts st h1).1 h2, h3⟩
  · rintro ⟨u, h1, h2⟩
    obtain ⟨i, hi⟩ := assigned_iff.1 h1.1
    exact ⟨i, u, hi, (usable_counts st hi).2 h1, h2⟩

theorem Visits.iff {p : Str} {c : Nat} {T : Str → Prop} (h : Visits w p c T) (tw : NoTwins w p c) (x : Str) :
    T x ↔ Covers w p c x := ⟨h.sound x, h.all tw x⟩

theorem scopedAt_iff {now : Int} (st : Steady w e now) {r : Req2} {c : Nat} {ns : Str} {T : Str → Prop}
    (hT : ∀ x, T x ↔ Covers w r.principal c x) (x : Str) :
    ScopedAt w e site r.principal ns r.scope T x ↔ ScopedPerm w now r c ns x := by
  unfold ScopedAt ScopedPerm
  simp only [rows_counts st (Q := fun u => u.scope = r.scope ∧ RolePerm w.dag u.role x), hT]
  constructor
  · rintro ⟨t, h1, u, h2⟩; exact ⟨t, u, h1, h2⟩
  · rintro ⟨t, u, h1, h2⟩; exact ⟨t, h1, u, h2⟩

theorem unscopedAt_iff {now : Int} (st : Steady w e now) {r : Req2} {c : Nat} {ns : Str} {T : Str → Prop}
    (hT : ∀ x, T x ↔ Covers w r.principal c x) (x : Str) :
    UnscopedAt w e site r.principal ns T x ↔ UnscopedPerm w now r c ns x := by
  unfold UnscopedAt UnscopedPerm
  simp only [rows_counts st (Q := fun u => u.scope = [] ∧ RolePerm w.dag u.role x), hT]
  constructor
  · rintro ⟨t, h1, u, h2⟩; exact ⟨t, u, h1, h2⟩
  · rintro ⟨t, u, h1, h2⟩; exact ⟨t, h1, u, h2⟩

theorem heldAt_iff {now : Int} (st : Steady w e now) {r : Req2} {c : Nat} {ns : Str} {T : Str → Prop}
    (hT : ∀ x, T x ↔ Covers w r.principal c x) (x : Str) :
    HeldAt w e site r.principal ns T x ↔ HeldRole w now r c ns x := by
  unfold HeldAt HeldRole
  simp only [rows_counts st (Q := fun u => u.role ≠ [] ∧ (x = u.role ∨ RoleBelow w.dag u.role x)), hT]
  constructor
  · rintro ⟨t, h1, u, h2⟩; exact ⟨t, u, h1, h2⟩
  · rintro ⟨t, u, h1, h2⟩; exact ⟨t, h1, u, h2⟩

theorem mem_targets {r : Req2} {cs : List Nat} (hcs : ∀ c, c ∈ cs ↔ Target w r c) {P : Nat → Prop} :
    (∃ (j : Nat) (c : Nat), cs[j]? = some c ∧ P c) ↔ ∃ c, Target w r c ∧ P c := by
  constructor
  · rintro ⟨j, c, h1, h2⟩; exact ⟨c, (hcs c).1 (List.mem_of_getElem? h1), h2⟩
  · rintro ⟨c, h1, h2⟩
    obtain ⟨j, hj⟩ := List.mem_iff_getElem?.1 ((hcs c).2 h1)
    exact ⟨j, c, hj, h2⟩

theorem not_target {r : Req2} (h : named w r ≠ [] ∧ ∀ c, (named w r, c) ∉ w.tenants) (c : Nat) : ¬ Target w r c := by
  rintro (⟨_, h1⟩ | ⟨h1, _⟩)
  · exact h.2 c h1
  · exact h.1 h1

/-- The part of a decision after the targets are found. -/
def dispatch (w : V2) (r : Req2) (body : Nat → Str → Str → V2 → Out (Bool × V2)) : Option (List Nat) → Out (Bool × V2)
  | none => .ok (false, w.logMsg r .invalidTenant)
  | some cs => tenantLoop r body 0 cs w

theorem authorize_eq (w : V2) (e : Env) (fuel : Nat) (site : List Val) (r : Req2) :
    w.authorize e fuel site r = (w.findTargets e.o site r).bind (w.dispatch r (authBody e fuel site r)) := by
  unfold authorize
  congr 1

theorem can_eq (w : V2) (e : Env) (fuel : Nat) (site : List Val) (r : Req2) (roles : List Str) :
    w.can e fuel site r roles = (w.findTargets e.o site r).bind (w.dispatch r (canBody e fuel site r roles)) := by
  unfold can
  congr 1

/-- How a decision runs, for either kind of body. -/
theorem decision_run (inv : Inv w) {emit : R2 → List Str} {r : Req2} {body : Nat → Str → Str → V2 → Out (Bool × V2)}
    {ts : Option (List Nat)} (hts : w.findTargets e.o site r = .ok ts) {b : Bool}
    (hb : ∀ k c t ns w1 b w2, (t.id, c) ∈ w.tenants → w.tobjs[c]? = some t → Run emit w w1 → body k t.id ns w1 = .ok (b, w2) → Run emit w w2)
    (h : w.dispatch r body ts = .ok (b, w')) : Run emit w w' := by
  have k1 := (findTargets_spec inv hts).1
  cases ts with
  | none => cases h; exact (Run.refl inv _).logMsg ..
  | some cs =>
    replace k1 := (k1 cs rfl).2
    have reg : ∀ c ∈ cs, ∃ t, w.tobjs[c]? = some t ∧ (t.id, c) ∈ w.tenants := fun c hc => target_registered inv ((k1 c).1 hc)
    replace h : tenantLoop r body 0 cs w = .ok (b, w') := h
    revert h
    generalize 0 = k
    suffices ∀ w1, Run emit w w1 → tenantLoop r body k cs w1 = .ok (b, w') → Run emit w w' from this w (.refl inv _)
    clear hts k1
    intro w1 h0 h
    induction cs generalizing k w1 with
    | nil => cases h; exact h0.logMsg ..
    | cons c cs ih =>
      obtain ⟨t, ht, hc⟩ := reg c (List.mem_cons_self ..)
      have reg' := fun c hc => reg c (List.mem_cons_of_mem _ hc)
      have wf := inv.nsWF t (List.mem_of_getElem? ht)
      rcases tenantLoop_cons (body := body) (k := k) (cs := cs) (r := r) (w := w1) (h0.frame.tobjs.symm ▸ ht) wf with
        ⟨hn, e⟩ | ⟨ns, hn, e⟩
      · rw [e] at h; exact ih reg' _ _ h0 h
      · rw [e] at h
        obtain ⟨⟨b1, w3⟩, h1, h2⟩ := Out.bind_eq_ok.1 h
        have := hb k c t ns w1 b1 w3 hc ht h0 h1
        cases b1 with
        | true => cases h2; exact this
        | false => exact ih reg' _ _ this h2

theorem authorize_run (inv : Inv w) {r : Req2} {b : Bool} (h : w.authorize e fuel site r = .ok (b, w')) :
    Run (·.perms) w w' := by
  rw [authorize_eq] at h
  obtain ⟨ts, h1, h2⟩ := Out.bind_eq_ok.1 h
  exact decision_run inv h1 (fun k c t ns w1 b w2 hc _ hr hb => (authBody_spec inv hc hr hb).1) h2

theorem can_run (inv : Inv w) {r : Req2} {roles : List Str} {b : Bool} (h : w.can e fuel site r roles = .ok (b, w')) :
    Run (fun o => [o.name]) w w' := by
  rw [can_eq] at h
  obtain ⟨ts, h1, h2⟩ := Out.bind_eq_ok.1 h
  exact decision_run inv h1 (fun k c t ns w1 b w2 hc _ hr hb => (canBody_spec inv hc hr hb).1) h2

theorem authorize_exact (inv : Inv w) {now : Int} (st : Steady w e now) {r : Req2}
    (tw : ∀ c, Target w r c → NoTwins w r.principal c) {b : Bool} (h : w.authorize e fuel site r = .ok (b, w')) :
    b = true ↔ Grants2 w now r := by
  obtain ⟨ts, h1, h2⟩ := Out.bind_eq_ok.1 h
  obtain ⟨k1, k2⟩ := findTargets_spec inv h1
  cases ts with
  | none =>
    cases h2
    simp only [Bool.false_eq_true, false_iff]
    rintro ⟨c, t, ns, x, h, _⟩
    exact not_target (k2.1 rfl) c h
  | some cs =>
    obtain ⟨-, k1⟩ := k1 cs rfl
    have reg : ∀ c ∈ cs, ∃ t, w.tobjs[c]? = some t ∧ (t.id, c) ∈ w.tenants := fun c hc => target_registered inv ((k1 c).1 hc)
    obtain ⟨-, h3⟩ := tenantLoop_spec inv (J := Run (·.perms) w) (fun w' h => ⟨h.frame, h.logMsg ..⟩)
      (G := fun _ c ns => ∃ x, Permits x r ∧ UsedPerm w now r c ns x)
      (fun k c hc t ns w1 b w2 ht hr hb => by
        obtain ⟨t', ht', hm⟩ := reg c hc
        rw [ht] at ht'; cases ht'
        obtain ⟨a1, T, a2, a3⟩ := authBody_spec inv hm hr hb
        refine ⟨a1, a3.trans (exists_congr fun x => and_congr_right fun _ => ?_)⟩
        have hT := a2.iff (tw c ((k1 c).1 hc))
        simp only [scopedAt_iff st hT, unscopedAt_iff st hT]
        rfl)
      (fun c hc => (reg c hc).imp fun _ h => h.1) (Run.refl inv _) h2
    rw [h3]
    have := mem_targets (w := w) (r := r) k1 (P := fun c => ∃ t ns, w.tobjs[c]? = some t ∧ Place t r ns ∧
      ∃ x, Permits x r ∧ UsedPerm w now r c ns x)
    unfold Grants2
    constructor
    · rintro ⟨j, c, t, ns, g1, g2⟩
      obtain ⟨c, hc, t, ns, g1, g2, x, g3, g4⟩ := this.1 ⟨j, c, g1, t, ns, g2⟩
      exact ⟨c, t, ns, x, hc, g1, g2, g4, g3⟩
    · rintro ⟨c, t, ns, x, hc, g1, g2, g4, g3⟩
      obtain ⟨j, c, g1, t, ns, g2⟩ := this.2 ⟨c, hc, t, ns, g1, g2, x, g3, g4⟩
      exact ⟨j, c, t, ns, g1, g2⟩

theorem can_exact (inv : Inv w) {now : Int} (st : Steady w e now) {r : Req2} {roles : List Str}
    (tw : ∀ c, Target w r c → NoTwins w r.principal c) {b : Bool} (h : w.can e fuel site r roles = .ok (b, w')) :
    b = true ↔ Can2 w now r roles := by
  obtain ⟨ts, h1, h2⟩ := Out.bind_eq_ok.1 h
  obtain ⟨k1, k2⟩ := findTargets_spec inv h1
  cases ts with
  | none =>
    cases h2
    simp only [Bool.false_eq_true, false_iff]
    rintro ⟨c, t, ns, x, h, _⟩
    exact not_target (k2.1 rfl) c h
  | some cs =>
    obtain ⟨-, k1⟩ := k1 cs rfl
    have reg : ∀ c ∈ cs, ∃ t, w.tobjs[c]? = some t ∧ (t.id, c) ∈ w.tenants := fun c hc => target_registered inv ((k1 c).1 hc)
    obtain ⟨-, h3⟩ := tenantLoop_spec inv (J := Run (fun o => [o.name]) w) (fun w' h => ⟨h.frame, h.logMsg ..⟩)
      (G := fun _ c ns => ∃ x ∈ roles, HeldRole w now r c ns x)
      (fun k c hc t ns w1 b w2 ht hr hb => by
        obtain ⟨t', ht', hm⟩ := reg c hc
        rw [ht] at ht'; cases ht'
        obtain ⟨a1, T, a2, a3⟩ := canBody_spec inv hm hr hb
        have hT := a2.iff (tw c ((k1 c).1 hc))
        exact ⟨a1, a3.trans (by simp only [heldAt_iff st hT])⟩)
      (fun c hc => (reg c hc).imp fun _ h => h.1) (Run.refl inv _) h2
    rw [h3]
    have := mem_targets (w := w) (r := r) k1 (P := fun c => ∃ t ns, w.tobjs[c]? = some t ∧ Place t r ns ∧
      ∃ x ∈ roles, HeldRole w now r c ns x)
    unfold Can2
    constructor
    · rintro ⟨j, c, t, ns, g1, g2⟩
      obtain ⟨c, hc, t, ns, g1, g2, x, g3, g4⟩ := this.1 ⟨j, c, g1, t, ns, g2⟩
      exact ⟨c, t, ns, x, hc, g1, g2, g3, g4⟩
    · rintro ⟨c, t, ns, x, hc, g1, g2, g3, g4⟩
      obtain ⟨j, c, g1, t, ns, g2⟩ := this.2 ⟨c, hc, t, ns, g1, g2, x, g3, g4⟩
      exact ⟨j, c, t, ns, g1, g2⟩

/-! ### What a grant rests on, with any clock and any tenant graph -/

/-- The step of the loop that granted. -/
theorem tenantLoop_true (inv : Inv w) {r : Req2} {body : Nat → Str → Str → V2 → Out (Bool × V2)} {J : V2 → Prop}
    (hJ : ∀ w', J w' → Frame w w') {cs : List Nat}
    (hb : ∀ k, ∀ c ∈ cs, ∀ t ns w1 b w2, w.tobjs[c]? = some t → J w1 → body k t.id ns w1 = .ok (b, w2) → J w2)
    (hcs : ∀ c ∈ cs, ∃ t, w.tobjs[c]? = some t) {k : Nat} {w1 w2 : V2} (h0 : J w1)
    (h : tenantLoop r body k cs w1 = .ok (true, w2)) :
    ∃ j, ∃ c ∈ cs, ∃ t ns w3, w.tobjs[c]? = some t ∧ Place t r ns ∧ J w3 ∧ body j t.id ns w3 = .ok (true, w2) := by
  induction cs generalizing k w1 with
  | nil => cases h
  | cons c cs ih =>
    have ih := fun {k w1} => ih (k := k) (w1 := w1) (fun k c hc => hb k c (List.mem_cons_of_mem _ hc))
      (fun c hc => hcs c (List.mem_cons_of_mem _ hc))
    obtain ⟨t, ht⟩ := hcs c (List.mem_cons_self ..)
    have wf := inv.nsWF t (List.mem_of_getElem? ht)
    have lift : (∃ j, ∃ c ∈ cs, ∃ t ns w3, w.tobjs[c]? = some t ∧ Place t r ns ∧ J w3 ∧ body j t.id ns w3 = .ok (true, w2)) →
        ∃ j, ∃ c' ∈ c :: cs, ∃ t ns w3, w.tobjs[c']? = some t ∧ Place t r ns ∧ J w3 ∧ body j t.id ns w3 = .ok (true, w2) :=
      fun ⟨j, c', hc, h⟩ => ⟨j, c', List.mem_cons_of_mem _ hc, h⟩
    rcases tenantLoop_cons (body := body) (k := k) (cs := cs) (r := r) (w := w1) ((hJ w1 h0).tobjs.symm ▸ ht) wf with
      ⟨hn, e⟩ | ⟨ns, hn, e⟩
    · rw [e] at h; exact lift (ih h0 h)
    · rw [e] at h
      obtain ⟨⟨b1, w3⟩, h1, h2⟩ := Out.bind_eq_ok.1 h
      cases b1 with
      | true => cases h2; exact ⟨k, c, List.mem_cons_self .., t, ns, w1, ht, hn, h0, h1⟩
      | false => exact lift (ih (hb k c (List.mem_cons_self ..) t ns w1 _ w3 ht h0 h1) h2)

/-- Every grant of `Authorize` rests on an assignment that was live when it was read. -/
theorem authorize_sound (inv : Inv w) {r : Req2} (h : w.authorize e fuel site r = .ok (true, w')) :
    ∃ c t ns tid u x s, Target w r c ∧ w.tobjs[c]? = some t ∧ Place t r ns ∧ Covers w r.principal c tid ∧
      Counts w r.principal ns tid (e.now s) u ∧ (u.scope = r.scope ∨ u.scope = []) ∧ RolePerm w.dag u.role x ∧ Permits x r := by
  obtain ⟨ts, h1, h2⟩ := Out.bind_eq_ok.1 h
  obtain ⟨k1, k2⟩ := findTargets_spec inv h1
  cases ts with
  | none => cases h2
  | some cs =>
    obtain ⟨-, k1⟩ := k1 cs rfl
    have reg : ∀ c ∈ cs, ∃ t, w.tobjs[c]? = some t ∧ (t.id, c) ∈ w.tenants := fun c hc => target_registered inv ((k1 c).1 hc)
    obtain ⟨j, c, hc, t, ns, w3, ht, hp, hr, hb⟩ := tenantLoop_true inv (J := Run (·.perms) w) (fun w' h => h.frame)
      (fun k c hc t ns w1 b w2 ht hr hb => by
        obtain ⟨t', ht', hm⟩ := reg c hc
        rw [ht] at ht'; cases ht'
        exact (authBody_spec inv hm hr hb).1) (fun c hc => (reg c hc).imp fun _ h => h.1) (Run.refl inv _) h2
    obtain ⟨t', ht', hm⟩ := reg c hc
    rw [ht] at ht'; cases ht'
    obtain ⟨-, T, a2, a3⟩ := authBody_spec inv hm hr hb
    obtain ⟨x, hx, h3⟩ := a3.1 rfl
    rcases h3 with ⟨tid, hT, i, u, g1, g2, g3, g4⟩ | ⟨_, tid, hT, i, u, g1, g2, g3, g4⟩
    · exact ⟨c, t, ns, tid, u, x, _, (k1 c).1 hc, ht, hp, a2.sound _ hT,
        ⟨assigned_iff.2 ⟨i, g1⟩, g2.1, g2.2.1, g2.2.2.1, g2.2.2.2⟩, .inl g3, g4, hx⟩
    · exact ⟨c, t, ns, tid, u, x, _, (k1 c).1 hc, ht, hp, a2.sound _ hT,
        ⟨assigned_iff.2 ⟨i, g1⟩, g2.1, g2.2.1, g2.2.2.1, g2.2.2.2⟩, .inr g3, g4, hx⟩

/-- Every grant of `Can` rests on an assignment that was live when it was read. -/
theorem can_sound (inv : Inv w) {r : Req2} {roles : List Str} (h : w.can e fuel site r roles = .ok (true, w')) :
    ∃ c t ns tid u s, Target w r c ∧ w.tobjs[c]? = some t ∧ Place t r ns ∧ Covers w r.principal c tid ∧
      Counts w r.principal ns tid (e.now s) u ∧ u.role ≠ [] ∧ ∃ x ∈ roles, x = u.role ∨ RoleBelow w.dag u.role x := by
  obtain ⟨ts, h1, h2⟩ := Out.bind_eq_ok.1 h
  obtain ⟨k1, k2⟩ := findTargets_spec inv h1
  cases ts with
  | none => cases h2
  | some cs =>
    obtain ⟨-, k1⟩ := k1 cs rfl
    have reg : ∀ c ∈ cs, ∃ t, w.tobjs[c]? = some t ∧ (t.id, c) ∈ w.tenants := fun c hc => target_registered inv ((k1 c).1 hc)
    obtain ⟨j, c, hc, t, ns, w3, ht, hp, hr, hb⟩ := tenantLoop_true inv (J := Run (fun o => [o.name]) w) (fun w' h => h.frame)
      (fun k c hc t ns w1 b w2 ht hr hb => by
        obtain ⟨t', ht', hm⟩ := reg c hc
        rw [ht] at ht'; cases ht'
        exact (canBody_spec inv hm hr hb).1) (fun c hc => (reg c hc).imp fun _ h => h.1) (Run.refl inv _) h2
    obtain ⟨t', ht', hm⟩ := reg c hc
    rw [ht] at ht'; cases ht'
    obtain ⟨-, T, a2, a3⟩ := canBody_spec inv hm hr hb
    obtain ⟨x, hx, tid, hT, i, u, g1, g2, g3, g4⟩ := a3.1 rfl
    exact ⟨c, t, ns, tid, u, _, (k1 c).1 hc, ht, hp, a2.sound _ hT,
      ⟨assigned_iff.2 ⟨i, g1⟩, g2.1, g2.2.1, g2.2.2.1, g2.2.2.2⟩, g3, x, hx, g4⟩

/-! ### Termination -/

/-- Stack depth and iterations needed by a decision. -/
def needs (w : V2) : Nat := w.roleFuel + w.tobjs.length + 1

theorem Run.needs {emit : R2 → List Str} (h : Run emit w w') : w'.needs = w.needs := by
  unfold V2.needs roleFuel
  rw [h.dag.same.2.2, h.frame.tobjs]

theorem authBody_total (inv : Inv w) (hnil : none ∉ w.userRoles) {r : Req2} (hf : w.needs ≤ fuel) {k c : Nat} {t : T2}
    (hc : (t.id, c) ∈ w.tenants) {ns : Str} {w1 : V2} (h0 : Run (·.perms) w w1)
    (hp : ∀ tid u x, Covers w r.principal c tid → Assigned w u → u.principal = r.principal → u.tenant = tid →
      RolePerm w.dag u.role x → ¬ Hangs x (r.resource ++ [32] ++ r.action)) :
    ∃ b w2, authBody e fuel site r k t.id ns w1 = .ok (b, w2) ∧ Run (·.perms) w w2 := by
  have inv1 := h0.inv inv
  rw [← h0.needs] at hf
  unfold V2.needs at hf
  obtain ⟨⟨res, d⟩, h1⟩ := resolvePerms_total (e := e) (site := site ++ [.int k]) inv1 (h0.frame.users.symm ▸ hnil)
    (fuel := fuel) (by omega) (by omega) r.principal t.id ns r.scope
  suffices ∃ b w2, authBody e fuel site r k t.id ns w1 = .ok (b, w2) by
    obtain ⟨b, w2, h⟩ := this
    exact ⟨b, w2, h, (authBody_spec inv hc h0 h).1⟩
  unfold authBody
  rw [h1, Out.bind_ok]
  cases res with
  | none => exact ⟨_, _, rfl⟩
  | some l =>
    obtain ⟨a1, T, a2, a3⟩ := resolvePerms_spec inv1 (h0.frame.tenants.symm ▸ hc) h1
    have key : ∀ x ∈ l, ¬ Hangs x (r.resource ++ [32] ++ r.action) := by
      intro x hx
      have hres : ∀ r x, RolePerm w1.dag r x ↔ RolePerm w.dag r x := h0.dag.res
      rcases (a3 x).1 ⟨l, rfl, hx⟩ with ⟨tid, hT, i, u, g1, g2, g3, g4⟩ | ⟨_, tid, hT, i, u, g1, g2, g3, g4⟩ <;>
      exact hp tid u x (h0.frame.covers.1 (a2.sound _ hT)) (assigned_iff.2 ⟨i, h0.frame.rowAt.1 g1⟩) g2.1 g2.2.1 ((hres _ _).1 g4)
    obtain ⟨b, hb⟩ := Out.anyI_total (f := fun _ perm => matchPermission perm r) (xs := e.o.ord (site ++ [.int k]) _ l) (i := 0)
      (fun j x hx => by
        unfold matchPermission
        split
        · exact ⟨_, rfl⟩
        · have h2 := fun h => key x (Ord.mem_ord.1 hx) ((C03_diverges_iff_partial (r.resource ++ [32] ++ r.action) x).1 h)
          cases h3 : matchResource (r.resource ++ [32] ++ r.action) x with
          | ok b => exact ⟨b, h3⟩
          | panic => exact absurd h3 (matchResource_no_panic _ _)
          | diverge => exact absurd h3 h2)
    simp only
    rw [hb]; exact ⟨_, _, rfl⟩

theorem authorize_total (inv : Inv w) (hnil : none ∉ w.userRoles) {r : Req2} (hf : w.needs ≤ fuel)
    (hp : ∀ c tid u x, Target w r c → Covers w r.principal c tid → Assigned w u → u.principal = r.principal →
      u.tenant = tid → RolePerm w.dag u.role x → ¬ Hangs x (r.resource ++ [32] ++ r.action)) :
    ∃ b w', w.authorize e fuel site r = .ok (b, w') := by
  obtain ⟨ts, h1⟩ := findTargets_total (site := site) inv hnil e.o r
  obtain ⟨k1, k2⟩ := findTargets_spec inv h1
  unfold authorize
  rw [h1, Out.bind_ok]
  cases ts with
  | none => exact ⟨_, _, rfl⟩
  | some cs =>
    obtain ⟨-, k1⟩ := k1 cs rfl
    have reg : ∀ c ∈ cs, ∃ t, w.tobjs[c]? = some t ∧ (t.id, c) ∈ w.tenants := fun c hc => target_registered inv ((k1 c).1 hc)
    obtain ⟨⟨b, w'⟩, h⟩ := tenantLoop_total inv (r := r) (body := authBody e fuel site r) (J := Run (·.perms) w)
      (fun w' h => h.frame) (fun k c hc t ns w1 ht hr => by
        obtain ⟨t', ht', hm⟩ := reg c hc
        rw [ht] at ht'; cases ht'
        exact authBody_total inv hnil hf hm hr fun tid u x => hp c tid u x ((k1 c).1 hc))
      (fun c hc => (reg c hc).imp fun _ h => h.1) (k := 0) (Run.refl inv _)
    exact ⟨b, w', h⟩

theorem can_total (inv : Inv w) (hnil : none ∉ w.userRoles) {r : Req2} {roles : List Str} (hf : w.needs ≤ fuel) :
    ∃ b w', w.can e fuel site r roles = .ok (b, w') := by
  obtain ⟨ts, h1⟩ := findTargets_total (site := site) inv hnil e.o r
  obtain ⟨k1, k2⟩ := findTargets_spec inv h1
  unfold can
  rw [h1, Out.bind_ok]
  cases ts with
  | none => exact ⟨_, _, rfl⟩
  | some cs =>
    obtain ⟨-, k1⟩ := k1 cs rfl
    have reg : ∀ c ∈ cs, ∃ t, w.tobjs[c]? = some t ∧ (t.id, c) ∈ w.tenants := fun c hc => target_registered inv ((k1 c).1 hc)
    obtain ⟨⟨b, w'⟩, h⟩ := tenantLoop_total inv (r := r) (body := canBody e fuel site r roles) (J := Run (fun o => [o.name]) w)
      (fun w' h => h.frame) (fun k c hc t ns w1 ht hr => by
        obtain ⟨t', ht', hm⟩ := reg c hc
        rw [ht] at ht'; cases ht'
        have inv1 := hr.inv inv
        have hf' := hf
        rw [← hr.needs] at hf'
        unfold V2.needs at hf'
        obtain ⟨⟨res, d⟩, h1⟩ := resolveRoles_total (e := e) (site := site ++ [.int k]) inv1 (hr.frame.users.symm ▸ hnil)
          (fuel := fuel) (by omega) (by omega) r.principal t.id ns
        suffices ∃ b w2, canBody e fuel site r roles k t.id ns w1 = .ok (b, w2) by
          obtain ⟨b, w2, h⟩ := this
          exact ⟨b, w2, h, (canBody_spec inv hm hr h).1⟩
        unfold canBody
        rw [h1, Out.bind_ok]
        cases res with
        | none => exact ⟨_, _, rfl⟩
        | some l => exact ⟨_, _, rfl⟩)
      (fun c hc => (reg c hc).imp fun _ h => h.1) (k := 0) (Run.refl inv _)
    exact ⟨b, w', h⟩

/-! ### Nil entries -/

theorem findTargets_panic_or {r : Req2} (inv : Inv w) (hnil : none ∈ w.userRoles) (o : Ord) :
    (named w r = [] ∧ w.findTargets o site r = .panic) ∨
    (named w r ≠ [] ∧ ∃ ts, w.findTargets o site r = .ok ts) := by
  unfold findTargets
  rw [named_eq]
  by_cases hn : named w r = []
  · simp only [if_pos hn]
    refine .inl ⟨hn, ?_⟩
    unfold findPrincipalTenants
    rw [Out.loop_panic (P := fun _ => True) (a := none) _ trivial hnil (fun _ _ => rfl)]
    · rfl
    · rintro s x hx -
      cases x with
      | none => exact .inr rfl
      | some j =>
        obtain ⟨u, hu⟩ := inv.users j hx
        left
        unfold ptStep
        simp only [prAt_eq_ok.2 ⟨j, rfl, hu⟩, Out.bind_ok]
        split
        · split
          · exact ⟨_, rfl, trivial⟩
          · rename_i c hc
            obtain ⟨t, ht, _⟩ := inv.tenants _ _ (GoMap.get_some_mem hc)
            unfold withT
            rw [ht]
            dsimp only
            split <;> exact ⟨_, rfl, trivial⟩
        · exact ⟨_, rfl, trivial⟩
  · simp only [if_neg hn]
    refine .inr ⟨hn, ?_⟩
    split <;> exact ⟨_, rfl⟩

/-- With a nil entry the decision panics unless the named tenant, namespace or scope is unknown. -/
theorem decision_panic (inv : Inv w) (hnil : none ∈ w.userRoles) {r : Req2} {body : Nat → Str → Str → V2 → Out (Bool × V2)}
    (hb : ∀ t c k ns, w.tobjs[c]? = some t → (t.id, c) ∈ w.tenants → body k t.id ns w = .panic)
    (hr : named w r = [] ∨ ∃ c t ns, Target w r c ∧ w.tobjs[c]? = some t ∧ Place t r ns) :
    (w.findTargets e.o site r).bind (w.dispatch r body) = .panic := by
  rcases findTargets_panic_or (site := site) (r := r) inv hnil e.o with ⟨_, h⟩ | ⟨hn, ts, h⟩
  · rw [h]; rfl
  · obtain ⟨c, t, ns, hc, ht, hp⟩ := hr.resolve_left hn
    rw [h, Out.bind_ok]
    have hm : (named w r, c) ∈ w.tenants := by
      rcases hc with ⟨_, h⟩ | ⟨h, _⟩
      · exact h
      · exact absurd h hn
    have hts : ts = some [c] := by
      unfold findTargets at h
      rw [named_eq] at h
      simp only [if_neg hn, (GoMap.mem_iff_get inv.tenantsWF).1 hm] at h
      cases h; rfl
    subst hts
    have wf := inv.nsWF t (List.mem_of_getElem? ht)
    obtain ⟨t', ht', hid⟩ := inv.tenants _ _ hm
    rw [ht] at ht'; cases ht'
    rcases tenantLoop_cons (body := body) (k := 0) (cs := []) (r := r) (w := w) ht wf with ⟨hn, e⟩ | ⟨ns', hn, e⟩
    · exact absurd hp (hn ns)
    · show tenantLoop r body 0 [c] w = _
      rw [e, hb t c 0 ns' ht (hid.symm ▸ hm)]
      rfl

theorem authorize_panic (inv : Inv w) (hnil : none ∈ w.userRoles) {r : Req2} (hf : w.roleFuel ≤ fuel)
    (hr : named w r = [] ∨ ∃ c t ns, Target w r c ∧ w.tobjs[c]? = some t ∧ Place t r ns) :
    w.authorize e fuel site r = .panic :=
  (authorize_eq ..).trans <| decision_panic inv hnil (fun t c k ns _ hm => by
    unfold authBody
    rw [resolvePerms_panic inv hnil hf ⟨c, hm⟩]; rfl) hr

theorem can_panic (inv : Inv w) (hnil : none ∈ w.userRoles) {r : Req2} {roles : List Str} (hf : w.roleFuel ≤ fuel)
    (hr : named w r = [] ∨ ∃ c t ns, Target w r c ∧ w.tobjs[c]? = some t ∧ Place t r ns) :
    w.can e fuel site r roles = .panic :=
  (can_eq ..).trans <| decision_panic inv hnil (fun t c k ns _ hm => by
    unfold canBody
    rw [resolveRoles_panic inv hnil hf ⟨c, hm⟩]; rfl) hr

/-! ### The log -/

theorem logMsg_log (w : V2) (r : Req2) (m : Msg) : (w.logMsg r m).log = if w.logger then w.log ++ [(r, m)] else w.log := by
  unfold logMsg; split <;> rfl

theorem logMsg_logger (w : V2) (r : Req2) (m : Msg) : (w.logMsg r m).logger = w.logger := by
  unfold logMsg; split <;> rfl

/-- What one body adds to the log. -/
def LogStep (r : Req2) (note : Msg) (b : Bool) (w1 w2 : V2) : Prop :=
  w2.logger = w1.logger ∧ w2.tobjs = w1.tobjs ∧ ((b = true ∧ w2.log = if w1.logger then w1.log ++ [(r, .granted)] else w1.log) ∨
  (b = false ∧ (w2.log = w1.log ∨ w2.log = if w1.logger then w1.log ++ [(r, note)] else w1.log)))

theorem authBody_log {r : Req2} {k : Nat} {tid ns : Str} {w1 w2 : V2} {b : Bool}
    (h : authBody e fuel site r k tid ns w1 = .ok (b, w2)) : LogStep r .noPerms b w1 w2 := by
  unfold authBody at h
  obtain ⟨⟨res, d⟩, h1, h2⟩ := Out.bind_eq_ok.1 h
  cases res with
  | none =>
    cases h2
    refine ⟨by rw [logMsg_logger], (Frame.log ..).tobjs, .inr ⟨rfl, .inr ?_⟩⟩
    rw [logMsg_log]
  | some l =>
    obtain ⟨b', h3, h4⟩ := Out.map_eq_ok.1 h2
    obtain ⟨rfl, rfl⟩ := Prod.mk.inj h4
    cases b'
    · exact ⟨rfl, rfl, .inr ⟨rfl, .inl rfl⟩⟩
    · refine ⟨by simp [logMsg_logger], (Frame.log ..).tobjs, .inl ⟨rfl, ?_⟩⟩
      simp [logMsg_log]

theorem canBody_log {r : Req2} {roles : List Str} {k : Nat} {tid ns : Str} {w1 w2 : V2} {b : Bool}
    (h : canBody e fuel site r roles k tid ns w1 = .ok (b, w2)) : LogStep r .noRoles b w1 w2 := by
  unfold canBody at h
  obtain ⟨⟨res, d⟩, h1, h2⟩ := Out.bind_eq_ok.1 h
  cases res with
  | none =>
    cases h2
    refine ⟨by rw [logMsg_logger], (Frame.log ..).tobjs, .inr ⟨rfl, .inr ?_⟩⟩
    rw [logMsg_log]
  | some l =>
    simp only at h2
    obtain ⟨rfl, rfl⟩ := Prod.mk.inj (Out.ok.inj h2)
    cases (e.o.ord (site ++ [.int k]) _ l).any (fun x => decide (x ∈ roles))
    · exact ⟨rfl, rfl, .inr ⟨rfl, .inl rfl⟩⟩
    · refine ⟨by simp [logMsg_logger], (Frame.log ..).tobjs, .inl ⟨rfl, ?_⟩⟩
      simp [logMsg_log]

theorem tenantLoop_log {r : Req2} {note : Msg} {body : Nat → Str → Str → V2 → Out (Bool × V2)}
    (hb : ∀ k tid ns w1 b w2, body k tid ns w1 = .ok (b, w2) → LogStep r note b w1 w2)
    {cs : List Nat} {k : Nat} {w1 w2 : V2} {b : Bool} (wf : ∀ t ∈ w1.tobjs, GoMap.WF t.namespaces)
    (h : tenantLoop r body k cs w1 = .ok (b, w2)) :
    (w1.logger = false → w2.log = w1.log) ∧ (w1.logger = true → ∃ n,
      w2.log = w1.log ++ List.replicate n (r, note) ++ [(r, if b then .granted else .failed)]) := by
  induction cs generalizing k w1 with
  | nil =>
    cases h
    refine ⟨fun hl => by rw [logMsg_log]; simp [hl], fun hl => ⟨0, by rw [logMsg_log]; simp [hl]⟩⟩
  | cons c cs ih =>
    have ht : ∃ t, w1.tobjs[c]? = some t := by
      rw [tenantLoop] at h
      obtain ⟨t, ht, _⟩ := withT_eq_ok.1 h
      exact ⟨t, ht⟩
    obtain ⟨t, ht⟩ := ht
    rcases tenantLoop_cons (body := body) (k := k) (cs := cs) (r := r) (w := w1) ht (wf t (List.mem_of_getElem? ht)) with
      ⟨hn, e⟩ | ⟨ns, hn, e⟩
    · rw [e] at h; exact ih wf h
    · rw [e] at h
      obtain ⟨⟨b1, w3⟩, h1, h2⟩ := Out.bind_eq_ok.1 h
      obtain ⟨s1, s2, s3⟩ := hb _ _ _ _ _ _ h1
      rcases s3 with ⟨rfl, s3⟩ | ⟨rfl, s3⟩
      · cases h2
        refine ⟨fun hl => by rw [s3]; simp [hl], fun hl => ⟨0, by rw [s3]; simp [hl]⟩⟩
      · obtain ⟨i1, i2⟩ := ih (s2.symm ▸ wf) h2
        rw [s1] at i1 i2
        refine ⟨fun hl => ?_, fun hl => ?_⟩
        · rw [i1 hl]
          rcases s3 with s3 | s3 <;> rw [s3]
          simp [hl]
        · obtain ⟨n, hn⟩ := i2 hl
          rcases s3 with s3 | s3
          · exact ⟨n, by rw [hn, s3]⟩
          · refine ⟨n + 1, ?_⟩
            rw [hn, s3, if_pos hl, List.replicate_succ]
            simp

theorem decision_log (inv : Inv w) {r : Req2} {note : Msg} {body : Nat → Str → Str → V2 → Out (Bool × V2)}
    (hb : ∀ k tid ns w1 b w2, body k tid ns w1 = .ok (b, w2) → LogStep r note b w1 w2) {b : Bool}
    (h : (w.findTargets e.o site r).bind (w.dispatch r body) = .ok (b, w')) :
    (w.logger = false → w'.log = w.log) ∧ (w.logger = true → ∃ n m,
      w'.log = w.log ++ List.replicate n (r, note) ++ [(r, m)] ∧
      ((b = true ∧ m = .granted) ∨
       (b = false ∧ m = .invalidTenant ∧ n = 0 ∧ named w r ≠ [] ∧ ∀ c, (named w r, c) ∉ w.tenants) ∨
       (b = false ∧ m = .failed ∧ (named w r = [] ∨ ∃ c, (named w r, c) ∈ w.tenants)))) := by
  obtain ⟨ts, h1, h2⟩ := Out.bind_eq_ok.1 h
  obtain ⟨-, k2⟩ := findTargets_spec inv h1
  cases ts with
  | none =>
    cases h2
    refine ⟨fun hl => by rw [logMsg_log]; simp [hl], fun hl => ⟨0, .invalidTenant, by rw [logMsg_log]; simp [hl], ?_⟩⟩
    exact .inr (.inl ⟨rfl, rfl, rfl, k2.1 rfl⟩)
  | some cs =>
    obtain ⟨i1, i2⟩ := tenantLoop_log hb inv.nsWF h2
    refine ⟨i1, fun hl => ?_⟩
    obtain ⟨n, hn⟩ := i2 hl
    refine ⟨n, _, hn, ?_⟩
    cases b
    · refine .inr (.inr ⟨rfl, rfl, ?_⟩)
      have : ¬ (named w r ≠ [] ∧ ∀ c, (named w r, c) ∉ w.tenants) := fun h => by simpa using k2.2 h
      by_cases hn : named w r = []
      · exact .inl hn
      · right
        exact Classical.byContradiction fun hc => this ⟨hn, fun c h => hc ⟨c, h⟩⟩
    · exact .inl ⟨rfl, rfl⟩

end V2
end Verif
