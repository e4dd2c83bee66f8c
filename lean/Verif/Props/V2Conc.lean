import Verif.Lemmas.V2Conc
import Verif.Props.V2Role
import Verif.Props.V2Locks

/-!
# Package v2: the role graph under concurrent calls (C85, C86)
-/

namespace Verif
open Spec

/-- What a resolution of `r` should return in the graph `d`: the names of the roles below it, or their permissions. -/
def Spec.Resolved (names : Bool) (d : Dag) (r x : Str) : Prop := if names then Below d r x else PermClosure d r x

namespace Conf
variable {c : Conf} {w : V2} {calls : List (List LCall)}

theorem resolved_of_bfsz {d : Dag} (inv : Dag.DInv d) {names : Bool} {n : Nat} {r : Str} {s : List Str}
    (h : d.bfsz names n [r] [] [] = some s) (x : Str) : x ∈ s ↔ Spec.Resolved names d r x := by
  have key : ∀ k a, (k, a) ∈ d.roles → ∃ o, d.objs[a]? = some o := fun k a hm => by
    obtain ⟨o, h1, _⟩ := inv.keyed k a hm
    exact ⟨o, h1⟩
  rw [Dag.bfs_spec inv (Dag.bfs_start d _ r) (Dag.bfs_of_bfsz key h)]
  unfold Spec.Resolved
  cases names with
  | false => exact Iff.rfl
  | true =>
    constructor
    · rintro ⟨b, h1, a, o, h2, h3, h4⟩
      obtain ⟨o', h5, h6⟩ := inv.keyed _ _ h2
      rw [h3] at h5
      cases h5
      have : x = o.name := by simpa [contrib] using h4
      exact this ▸ h6 ▸ h1
    · intro h1
      obtain ⟨a, ha⟩ := h1.registered
      obtain ⟨o, h5, h6⟩ := inv.keyed _ _ ha
      exact ⟨x, h1, a, o, ha, h5, by simp [contrib, h6]⟩

/-! ## C85 -/

/-- Resolutions of this kind run. -/
def Kind (calls : List (List LCall)) (names : Bool) : Prop := ∃ cs ∈ calls, ∃ call ∈ cs, call.Resolves names

/-- The set is what a resolution of `r` should return in `d`. -/
def IsResult (calls : List (List LCall)) (d : Dag) (r : Str) (s : List Str) : Prop :=
  ∃ names, Kind calls names ∧ ∀ x, x ∈ s ↔ Spec.Resolved names d r x

/-- No call changes permissions; the role objects given to `AddRole` exist. -/
def Calm (w : V2) (calls : List (List LCall)) : Prop := ∀ cs ∈ calls, ∀ call ∈ cs,
  (∀ a ps, call ≠ .addPermission a ps ∧ call ≠ .removePermission a ps) ∧
  ∀ as, call = .addRoles as → ∀ a ∈ as, a < w.dag.objs.length

theorem dInv_roles {d : Dag} (inv : Dag.DInv d) {a : Nat} (ha : a < d.objs.length) :
    Dag.DInv { d with roles := d.roles.set (d.objs.getD a { name := [] }).name a } := by
  refine ⟨GoMap.wf_set inv.rolesWF .., inv.edgesWF, inv.resolvedWF, fun k b hm => ?_, inv.perms⟩
  rcases (GoMap.mem_set_iff inv.rolesWF).1 hm with h | ⟨_, h⟩
  · cases h
    exact ⟨_, List.getElem?_eq_getElem ha, by rw [List.getD_eq_getElem?_getD, List.getElem?_eq_getElem ha]; rfl⟩
  · exact inv.keyed k b h

/-- The rules for C85: cached sets are known results. -/
def c85 (w : V2) (calls : List (List LCall)) : Rules where
  full := true
  R A d := Dag.DInv d ∧ d.objs = w.dag.objs ∧ (∀ r s, d.resolved.get r = some s → A.fact r s) ∧
    (∀ r s, IsResult calls d r s → A.fact r s) ∧ ∀ a, A.reg a
  ext A d := { fact := fun r s => A.fact r s ∨ IsResult calls d r s, reg := A.reg, link := fun _ _ => True }
  le_ext _ _ := ⟨fun _ _ h => .inl h, fun _ h => h, fun _ _ _ => trivial⟩
  R_ext h := ⟨h.1, h.2.1, fun r s hs => .inl (h.2.2.1 r s hs), fun _ _ hs => .inr hs, h.2.2.2.2⟩

theorem c85_laws (hc : Calm w calls) : (c85 w calls).Laws fun call => ∃ cs ∈ calls, call ∈ cs where
  perms _ a ps := ⟨fun ⟨cs, h1, h2⟩ => ((hc cs h1 _ h2).1 a ps).1 rfl, fun ⟨cs, h1, h2⟩ => ((hc cs h1 _ h2).1 a ps).2 rfl⟩
  cached hR hs := hR.2.2.1 _ _ hs
  computed := fun {A d names r s call} ⟨cs, h1, h2⟩ h3 hR hs => by
    obtain ⟨n, hn⟩ := hs rfl
    exact hR.2.2.2.1 r s ⟨names, ⟨cs, h1, call, h2, h3⟩, resolved_of_bfsz hR.1 hn⟩
  cache := fun {A d r s} hR hf => by
    refine ⟨⟨hR.1.rolesWF, hR.1.edgesWF, GoMap.wf_set hR.1.resolvedWF .., hR.1.keyed, hR.1.perms⟩, hR.2.1, fun q t ht => ?_,
      fun _ _ h => .inr h, hR.2.2.2.2⟩
    simp only [GoMap.get_set] at ht
    split at ht
    · rename_i e
      cases ht
      exact .inl (e ▸ hf)
    · exact .inl (hR.2.2.1 q t ht)
  role := fun {A d as a} ⟨cs, h1, h2⟩ ha hR => by
    refine ⟨⟨dInv_roles hR.1 ?_, hR.2.1, fun q t ht => .inl (hR.2.2.1 q t ht), fun _ _ h => .inr h, hR.2.2.2.2⟩, hR.2.2.2.2 a⟩
    rw [hR.2.1]
    exact (hc cs h1 _ h2).2 as rfl a ha
  child := fun {A d p cs n} _ hR _ =>
    ⟨⟨⟨hR.1.rolesWF, GoMap.wf_set hR.1.edgesWF .., hR.1.resolvedWF, hR.1.keyed, hR.1.perms⟩, hR.2.1,
      fun q t ht => .inl (hR.2.2.1 q t ht), fun _ _ h => .inr h, hR.2.2.2.2⟩, trivial⟩

/-- What the facts of a schedule come from. -/
theorem c85_facts {A : Ghost} {c0 : Conf} {is : List Nat} {r : Str} {s : List Str} (h : (facts (c85 w calls) A c0 is).fact r s) :
    A.fact r s ∨ ∃ is1 is2 c1, is = is1 ++ is2 ∧ c0.run is1 = some c1 ∧ IsResult calls c1.mem.dag r s := by
  induction is generalizing A c0 with
  | nil => exact .inl h
  | cons i is ih =>
    unfold facts at h
    cases e : c0.step i with
    | none => rw [e] at h; exact .inl h
    | some c1 =>
      rw [e] at h
      rcases ih h with (h1 | h1) | ⟨is1, is2, c2, h1, h2, h3⟩
      · exact .inl h1
      · exact .inr ⟨[i], is, c1, rfl, by simp [run, e], h1⟩
      · exact .inr ⟨i :: is1, is2, c2, by rw [h1]; rfl, by simp [run, e, h2], h3⟩

/-- C85. Whatever runs beside it: a resolution returns a set that was cached before, or exactly the set for the graph
as it was at some moment of the run. -/
theorem C85_results_partial (inv : Dag.DInv w.dag) (hc : Calm w calls) {is : List Nat} (h : (start w calls).run is = some c) {t : Thread}
    (ht : t ∈ c.threads) {names : Bool} {r : Str} {res : Option (List Str)} (ho : (LCall.resolve names r, res) ∈ t.out) :
    ∃ s, res = some s ∧ ((r, s) ∈ w.dag.resolved ∨
      ∃ is1 is2 c1, is = is1 ++ is2 ∧ (start w calls).run is1 = some c1 ∧ IsResult calls c1.mem.dag r s) := by
  have hR := ruled (c85_laws hc) (fun cs h1 call h2 => ⟨cs, h1, h2⟩)
    (A := { fact := fun r s => (r, s) ∈ w.dag.resolved ∨ IsResult calls w.dag r s, reg := fun _ => True, link := fun _ _ => True })
    ⟨inv, rfl, fun r s hs => .inl (GoMap.get_some_mem hs), fun r s hs => .inr hs, fun _ => trivial⟩ h
  obtain ⟨s, h1, h2⟩ := hR.out t ht _ ho
  refine ⟨s, h1, ?_⟩
  rcases c85_facts h2 with (h3 | h3) | h3
  · exact .inl h3
  · exact .inr ⟨[], is, _, rfl, rfl, h3⟩
  · exact .inr h3

/-- No call changes the graph or permissions. -/
def Still (calls : List (List LCall)) : Prop := ∀ cs ∈ calls, ∀ call ∈ cs,
  (∀ a ps, call ≠ .addPermission a ps ∧ call ≠ .removePermission a ps) ∧ (∀ as, call ≠ .addRoles as) ∧ ∀ p cs', call ≠ .addChildRole p cs'

/-- The rules for an unchanging graph. -/
def c85s (w : V2) (calls : List (List LCall)) : Rules where
  full := true
  R A d := Dag.DInv d ∧ Dag.SameBut w.dag d ∧ (∀ r s, d.resolved.get r = some s → A.fact r s) ∧ ∀ r s, IsResult calls w.dag r s → A.fact r s
  ext A _ := A
  le_ext _ _ := .refl _
  R_ext h := h

theorem resolved_same {d d' : Dag} (h : Dag.SameBut d d') {names : Bool} {r x : Str} : Spec.Resolved names d' r x ↔ Spec.Resolved names d r x := by
  unfold Spec.Resolved
  split
  · exact h.under
  · unfold PermClosure HasPerm
    simp only [h.under, h.1, h.2.1]

theorem c85s_laws (hc : Still calls) : (c85s w calls).Laws fun call => ∃ cs ∈ calls, call ∈ cs where
  perms _ a ps := ⟨fun ⟨cs, h1, h2⟩ => ((hc cs h1 _ h2).1 a ps).1 rfl, fun ⟨cs, h1, h2⟩ => ((hc cs h1 _ h2).1 a ps).2 rfl⟩
  cached hR hs := hR.2.2.1 _ _ hs
  computed := fun {A d names r s call} ⟨cs, h1, h2⟩ h3 hR hs => by
    obtain ⟨n, hn⟩ := hs rfl
    exact hR.2.2.2 r s ⟨names, ⟨cs, h1, call, h2, h3⟩, fun x => (resolved_of_bfsz hR.1 hn x).trans (resolved_same hR.2.1)⟩
  cache := fun {A d r s} hR hf => by
    refine ⟨⟨hR.1.rolesWF, hR.1.edgesWF, GoMap.wf_set hR.1.resolvedWF .., hR.1.keyed, hR.1.perms⟩, hR.2.1, fun q t ht => ?_, hR.2.2.2⟩
    simp only [GoMap.get_set] at ht
    split at ht
    · rename_i e
      cases ht
      exact e ▸ hf
    · exact hR.2.2.1 q t ht
  role := fun ⟨cs, h1, h2⟩ => absurd rfl ((hc cs h1 _ h2).2.1 _)
  child := fun ⟨cs, h1, h2⟩ => absurd rfl ((hc cs h1 _ h2).2.2 _ _)

theorem facts_const {ρ : Rules} (hρ : ∀ A d, ρ.ext A d = A) {A : Ghost} {c0 : Conf} {is : List Nat} : facts ρ A c0 is = A := by
  induction is generalizing c0 with
  | nil => rfl
  | cons i is ih =>
    unfold facts
    split
    · rfl
    · rw [hρ]; exact ih

/-- C85. While the graph does not change and resolutions of one kind run, every resolution returns exactly the set for
that graph, however the goroutines are scheduled. -/
theorem C85_still_partial (inv : Dag.DInv w.dag) (hc : Still calls) {names : Bool} (hk : ∀ b, Kind calls b → b = names) {is : List Nat}
    (h : (start w calls).run is = some c) {t : Thread} (ht : t ∈ c.threads) {b : Bool} {r : Str} {res : Option (List Str)}
    (ho : (LCall.resolve b r, res) ∈ t.out) (hn : ∀ s, (r, s) ∉ w.dag.resolved) :
    ∃ s, res = some s ∧ ∀ x, x ∈ s ↔ Spec.Resolved names w.dag r x := by
  have hR := ruled (c85s_laws hc) (fun cs h1 call h2 => ⟨cs, h1, h2⟩)
    (A := { fact := fun r s => (r, s) ∈ w.dag.resolved ∨ IsResult calls w.dag r s, reg := fun _ => True, link := fun _ _ => True })
    ⟨inv, .refl _, fun r s hs => .inl (GoMap.get_some_mem hs), fun r s hs => .inr hs⟩ h
  obtain ⟨s, h1, h2⟩ := hR.out t ht _ ho
  rw [facts_const fun _ _ => rfl] at h2
  rcases h2 with h3 | ⟨b', h3, h4⟩
  · exact absurd h3 (hn s)
  · exact ⟨s, h1, hk b' h3 ▸ h4⟩

/-- C85 as intended: all resolutions of a role return the same set, as they do when the calls are made one after the
other (the first one caches it). -/
def C85_full : Prop := ∀ w calls is c, Dag.DInv w.dag → Calm w calls → (∀ b, Kind calls b → b = false) →
  (start w calls).run is = some c → ∀ t ∈ c.threads, ∀ u ∈ c.threads, ∀ r s s',
    (LCall.resolve false r, some s) ∈ t.out → (LCall.resolve false r, some s') ∈ u.out → ∀ x, x ∈ s ↔ x ∈ s'

/-- Two registered roles. -/
def exTwo : V2 where
  dag := { objs := [{ name := str "r", perms := [str "x read"] }, { name := str "q", perms := [str "y read"] }],
           roles := [(str "r", 0), (str "q", 1)] }

/-- Two goroutines resolve the same role, a third adds a child. -/
def exCalls : List (List LCall) := [[.resolve false (str "r")], [.resolve false (str "r")], [.addChildRole (str "r") [str "q"]]]

/-- Both resolutions miss the cache; the child comes between their computations. -/
def exSchedule : List Nat := [0, 0, 0, 0] ++ [1, 1, 1, 1] ++ List.replicate 9 0 ++ List.replicate 8 2 ++ List.replicate 12 1

/-- The resolutions a goroutine has finished. -/
def resolutions (t : Thread) : List (Bool × Str × List Str) := t.out.filterMap fun e => match e with
  | (.resolve b r, some s) => some (b, r, s)
  | _ => none

theorem mem_resolutions {t : Thread} {b : Bool} {r : Str} {s : List Str} (h : (b, r, s) ∈ resolutions t) :
    (LCall.resolve b r, some s) ∈ t.out := by
  obtain ⟨e, h1, h2⟩ := List.mem_filterMap.1 h
  split at h2
  · cases h2; exact h1
  · cases h2

set_option synthInstance.maxSize 1000 in
theorem C85_counterexample : ((start exTwo exCalls).run exSchedule).map (fun c => c.threads.map resolutions) =
    some [[(false, str "r", [str "x read"])], [(false, str "r", [str "x read", str "y read"])], []] := by decide +kernel

theorem exTwo_inv : Dag.DInv exTwo.dag where
  rolesWF := by unfold GoMap.WF; decide +kernel
  edgesWF := GoMap.wf_nil
  resolvedWF := GoMap.wf_nil
  keyed := by
    have : ∀ e ∈ exTwo.dag.roles, ∃ o ∈ exTwo.dag.objs, exTwo.dag.objs[e.2]? = some o ∧ o.name = e.1 := by decide +kernel
    intro k a h
    obtain ⟨o, _, h1⟩ := this _ h
    exact ⟨o, h1⟩
  perms := by decide +kernel

theorem exCalls_calm : Calm exTwo exCalls := by simp [Calm, exCalls]

theorem exCalls_kind (b : Bool) (h : Kind exCalls b) : b = false := by
  simp [Kind, exCalls, LCall.Resolves] at h
  exact h

/-- C85. So the intended property fails. -/
theorem C85_full_false : ¬ C85_full := fun h => by
  obtain ⟨c, h1, h2⟩ := Option.map_eq_some_iff.1 C85_counterexample
  have e : ∀ l ∈ c.threads.map resolutions, ∃ t ∈ c.threads, resolutions t = l := fun l hl => List.mem_map.1 hl
  rw [h2] at e
  obtain ⟨t, ht, h3⟩ := e _ List.mem_cons_self
  obtain ⟨u, hu, h4⟩ := e _ (List.mem_cons_of_mem _ List.mem_cons_self)
  have h5 := h _ _ _ _ exTwo_inv exCalls_calm exCalls_kind h1 t ht u hu (str "r") _ _ (mem_resolutions (h3 ▸ List.mem_cons_self))
    (mem_resolutions (h4 ▸ List.mem_cons_self)) (str "y read")
  exact absurd (h5.2 (by decide +kernel)) (by decide +kernel)

-- `C85_results_partial` says something here: one of the two results is the set before the child was added, the other the set after it.
example {is : List Nat} (h : (start exTwo exCalls).run is = some c) {t : Thread} (ht : t ∈ c.threads) {res : Option (List Str)}
    (ho : (LCall.resolve false (str "r"), res) ∈ t.out) :
    ∃ s, res = some s ∧ ∃ is1 is2 c1, is = is1 ++ is2 ∧ (start exTwo exCalls).run is1 = some c1 ∧ IsResult exCalls c1.mem.dag (str "r") s := by
  obtain ⟨s, h1, h2 | h2⟩ := C85_results_partial exTwo_inv exCalls_calm h ht ho
  · cases h2
  · exact ⟨s, h1, h2⟩

-- `C85_still_partial`: two goroutines resolve `r`, a third sets the default tenant.
example {is : List Nat} (h : (start exTwo [[.resolve false (str "r")], [.resolve false (str "r")], [.setDefaultTenant (str "t")]]).run is = some c)
    {t : Thread} (ht : t ∈ c.threads) {res : Option (List Str)} (ho : (LCall.resolve false (str "r"), res) ∈ t.out) :
    ∃ s, res = some s ∧ ∀ x, x ∈ s ↔ PermClosure exTwo.dag (str "r") x :=
  C85_still_partial (names := false) exTwo_inv (by simp [Still]) (fun b hb => by simpa [Kind, LCall.Resolves] using hb) h ht ho (fun _ h => nomatch h)

/-! ## C86 -/

theorem edge_view {full : Bool} {m : V2} {a b : Str} : Edge (view full m) a b ↔ Edge m.dag a b := by cases full <;> exact Iff.rfl

theorem acyclic_view {full : Bool} {m : V2} : Acyclic (view full m) ↔ Acyclic m.dag := by cases full <;> exact Iff.rfl

theorem registered_view {full : Bool} {m : V2} {r : Str} : Registered (view full m) r ↔ Registered m.dag r := by cases full <;> exact Iff.rfl

/-- The name of a role object. -/
def nameOf (w : V2) (a : Nat) : Str := (w.roleAt a).name

/-- What the rules for C86 say of a graph. -/
structure C86Inv (w : V2) (ok : LCall → Prop) (A : Ghost) (d : Dag) : Prop where
  edgesWF : GoMap.WF d.edges
  rolesWF : GoMap.WF d.roles
  acyclic : Acyclic d
  names : ∀ a, (d.objs.getD a { name := [] }).name = nameOf w a
  fact : ∀ r s, A.fact r s
  link : ∀ p cs, A.link p cs → ∀ b ∈ cs, Edge d p b
  reg : ∀ a, A.reg a → Registered d (nameOf w a)
  edges : ∀ a b, Edge w.dag a b → Edge d a b
  roles : ∀ r, Registered w.dag r → Registered d r
  onlyEdges : ∀ a b, Edge d a b → Edge w.dag a b ∨ ∃ cs, ok (.addChildRole a cs) ∧ b ∈ cs
  onlyRoles : ∀ r, Registered d r → Registered w.dag r ∨ ∃ as a, ok (.addRoles as) ∧ a ∈ as ∧ nameOf w a = r

def c86 (w : V2) (ok : LCall → Prop) : Rules where
  full := false
  R := C86Inv w ok
  ext A d := { fact := A.fact, reg := fun a => A.reg a ∨ Registered d (nameOf w a), link := fun p cs => A.link p cs ∨ ∀ b ∈ cs, Edge d p b }
  le_ext _ _ := ⟨fun _ _ h => h, fun _ h => .inl h, fun _ _ h => .inl h⟩
  R_ext h := { h with link := fun p cs hl => hl.elim (h.link p cs) id, reg := fun a ha => ha.elim (h.reg a) id }

theorem c86_laws (w : V2) (ok : LCall → Prop) : (c86 w ok).Laws ok where
  perms h := by cases h
  cached h _ := h.fact _ _
  computed _ _ h _ := h.fact _ _
  cache := fun {A d r s} h _ => (c86 w ok).R_ext (A := A) (d := { d with resolved := d.resolved.set r s })
    ⟨h.edgesWF, h.rolesWF, h.acyclic, h.names, h.fact, h.link, h.reg, h.edges, h.roles, h.onlyEdges, h.onlyRoles⟩
  role := fun {A d as a} hok ha h => by
    have e : (d.objs.getD a { name := [] }).name = nameOf w a := h.names a
    have hr : ∀ r, Registered { d with roles := d.roles.set (nameOf w a) a } r ↔ Registered d r ∨ r = nameOf w a := fun r => by
      unfold Registered
      simp only [GoMap.mem_set_iff h.rolesWF]
      constructor
      · rintro ⟨b, h1 | ⟨_, h1⟩⟩
        · cases h1; exact .inr rfl
        · exact .inl ⟨b, h1⟩
      · rintro (⟨b, h1⟩ | rfl)
        · by_cases hrn : r = nameOf w a
          · subst hrn; exact ⟨a, .inl rfl⟩
          · exact ⟨b, .inr ⟨hrn, h1⟩⟩
        · exact ⟨a, .inl rfl⟩
    simp only [e]
    refine ⟨(c86 w ok).R_ext (A := A) (d := { d with roles := d.roles.set (nameOf w a) a })
      ⟨h.edgesWF, GoMap.wf_set h.rolesWF .., h.acyclic, h.names, h.fact, h.link, fun b hb => (hr _).2 (.inl (h.reg b hb)), h.edges,
        fun r hr' => (hr r).2 (.inl (h.roles r hr')), h.onlyEdges, fun r hr' => ?_⟩, .inr ((hr _).2 (.inr rfl))⟩
    rcases (hr r).1 hr' with h1 | h1
    · exact h.onlyRoles r h1
    · exact .inr ⟨as, a, hok, ha, h1.symm⟩
  child := fun {A d p cs n} hok h hn => by
    obtain ⟨fuel, hf⟩ := Dag.srch_check hn
    have he : ∀ a b, Edge { d with edges := d.edges.set p (d.children p ++ cs) } a b ↔ Edge d a b ∨ (a = p ∧ b ∈ cs) :=
      fun a b => Dag.edge_add h.edgesWF
    refine ⟨(c86 w ok).R_ext (A := A) (d := { d with edges := d.edges.set p (d.children p ++ cs) })
      ⟨GoMap.wf_set h.edgesWF .., h.rolesWF, Dag.acyclic_add h.edgesWF h.acyclic ((Dag.C45_exact h.edgesWF hf).1 rfl).1, h.names, h.fact,
        fun q ds hl b hb => (he _ _).2 (.inl (h.link q ds hl b hb)), h.reg, fun a b hab => (he _ _).2 (.inl (h.edges a b hab)), h.roles,
        fun a b hab => ?_, h.onlyRoles⟩, .inr fun b hb => (he _ _).2 (.inr ⟨rfl, hb⟩)⟩
    rcases (he a b).1 hab with h1 | ⟨rfl, h1⟩
    · exact h.onlyEdges a b h1
    · exact .inr ⟨cs, hok, h1⟩

theorem c86_run (h1 : GoMap.WF w.dag.edges) (h2 : GoMap.WF w.dag.roles) (h3 : Acyclic w.dag) {is : List Nat}
    (h : (start w calls).run is = some c) :
    ∃ A, Ruled (c86 w fun call => ∃ cs ∈ calls, call ∈ cs) A c := by
  refine ⟨_, ruled (c86_laws w _) (fun cs h1 call h2 => ⟨cs, h1, h2⟩) (A := { fact := fun _ _ => True, reg := fun _ => False, link := fun _ _ => False }) ?_ h⟩
  exact ⟨h1, h2, h3, fun a => LCall.view_name, fun _ _ => trivial, fun _ _ h => h.elim, fun _ h => h.elim, fun _ _ h => h, fun _ h => h,
    fun _ _ h => .inl h, fun _ h => .inl h⟩

/-- C86. The role graph stays free of cycles, whatever calls run in whatever order. -/
theorem C86_acyclic (h1 : GoMap.WF w.dag.edges) (h2 : GoMap.WF w.dag.roles) (h3 : Acyclic w.dag) {is : List Nat}
    (h : (start w calls).run is = some c) : Acyclic c.mem.dag := by
  obtain ⟨A, hA⟩ := c86_run h1 h2 h3 h
  exact acyclic_view.1 hA.mem.acyclic

/-- C86. No update is lost: links and registered roles stay, and a call that has returned has left its links (unless it
was refused) or its roles. -/
theorem C86_kept (h1 : GoMap.WF w.dag.edges) (h2 : GoMap.WF w.dag.roles) (h3 : Acyclic w.dag) {is : List Nat}
    (h : (start w calls).run is = some c) :
    (∀ a b, Edge w.dag a b → Edge c.mem.dag a b) ∧ (∀ r, Registered w.dag r → Registered c.mem.dag r) ∧
    ∀ t ∈ c.threads,
      (∀ p cs, (LCall.addChildRole p cs, none) ∈ t.out → ∀ b ∈ cs, Edge c.mem.dag p b) ∧
      (∀ as res, (LCall.addRoles as, res) ∈ t.out → ∀ a ∈ as, Registered c.mem.dag (nameOf w a)) := by
  obtain ⟨A, hA⟩ := c86_run h1 h2 h3 h
  refine ⟨fun a b hab => edge_view.1 (hA.mem.edges a b hab), fun r hr => registered_view.1 (hA.mem.roles r hr), fun t ht => ⟨?_, ?_⟩⟩
  · exact fun p cs ho b hb => edge_view.1 (hA.mem.link p cs (hA.out t ht _ ho rfl) b hb)
  · exact fun as res ho a ha => registered_view.1 (hA.mem.reg a (hA.out t ht _ ho a ha))

/-- C86. Nothing else appears: every link and every registered role was there before or was given to some call. -/
theorem C86_only (h1 : GoMap.WF w.dag.edges) (h2 : GoMap.WF w.dag.roles) (h3 : Acyclic w.dag) {is : List Nat}
    (h : (start w calls).run is = some c) :
    (∀ a b, Edge c.mem.dag a b → Edge w.dag a b ∨ ∃ l ∈ calls, ∃ cs, LCall.addChildRole a cs ∈ l ∧ b ∈ cs) ∧
    (∀ r, Registered c.mem.dag r → Registered w.dag r ∨ ∃ l ∈ calls, ∃ as, LCall.addRoles as ∈ l ∧ ∃ a ∈ as, nameOf w a = r) := by
  obtain ⟨A, hA⟩ := c86_run h1 h2 h3 h
  refine ⟨fun a b hab => ?_, fun r hr => ?_⟩
  · rcases hA.mem.onlyEdges a b (edge_view.2 hab) with h4 | ⟨cs, ⟨l, h4, h5⟩, h6⟩
    · exact .inl h4
    · exact .inr ⟨l, h4, cs, h5, h6⟩
  · rcases hA.mem.onlyRoles r (registered_view.2 hr) with h4 | ⟨as, a, ⟨l, h4, h5⟩, h6, h7⟩
    · exact .inl h4
    · exact .inr ⟨l, h4, as, h5, a, h6, h7⟩

/-- C86. Of two calls that would close a loop at most one is accepted. -/
theorem C86_opposite (h1 : GoMap.WF w.dag.edges) (h2 : GoMap.WF w.dag.roles) (h3 : Acyclic w.dag) {is : List Nat}
    (h : (start w calls).run is = some c) {t u : Thread} (ht : t ∈ c.threads) (hu : u ∈ c.threads) {p q : Str} {cs ds : List Str}
    (hq : q ∈ cs) (hp : p ∈ ds) (h4 : (LCall.addChildRole p cs, none) ∈ t.out) : (LCall.addChildRole q ds, none) ∉ u.out := fun h5 => by
  have k := (C86_kept h1 h2 h3 h).2.2
  exact C86_acyclic h1 h2 h3 h p (.tail (.single ((k t ht).1 p cs h4 q hq)) ((k u hu).1 q ds h5 p hp))

/-- Two goroutines link the roles of `exTwo` in opposite directions, a third registers one of them again. -/
def exLinks : List (List LCall) := [[.addChildRole (str "r") [str "q"]], [.addChildRole (str "q") [str "r"]], [.addRoles [0]]]

theorem exTwo_acyclic : Acyclic exTwo.dag := by
  have hno : ∀ x y, ¬ Edge exTwo.dag x y := by rintro x y ⟨cs, h, _⟩; cases h
  intro r h
  obtain ⟨b, _, h2⟩ := Relation.TransGen.tail'_iff.1 h
  exact hno _ _ h2

-- In every run at most one of the two is accepted, and the graph has no cycle.
example {is : List Nat} (h : (start exTwo exLinks).run is = some c) : Acyclic c.mem.dag ∧
    ∀ t ∈ c.threads, ∀ u ∈ c.threads, (LCall.addChildRole (str "r") [str "q"], none) ∈ t.out →
      (LCall.addChildRole (str "q") [str "r"], none) ∉ u.out :=
  ⟨C86_acyclic GoMap.wf_nil exTwo_inv.rolesWF exTwo_acyclic h, fun t ht u hu =>
    C86_opposite GoMap.wf_nil exTwo_inv.rolesWF exTwo_acyclic h ht hu (by simp) (by simp)⟩

set_option synthInstance.maxSize 1000 in
-- One run: the second goroutine has to wait, and is refused.
example : ((start exTwo exLinks).run ([0, 0, 1, 0, 0, 0, 0, 0, 0] ++ List.replicate 6 1)).map (fun c => (c.threads.map fun t => t.out.map (·.2), c.mem.dag.edges)) =
    some ([[none], [some []], []], [(str "r", [str "q"])]) := by decide +kernel

end Conf
end Verif
