import Verif.Model.ManagersMade
import Verif.Props.Managers

/-!
# Managers made while a program runs (C110, C111)

When a manager is made makes no difference: a program that calls `New` at any time ends where it ends when all managers
are made first, so C110 and C111 hold for it.
-/

namespace Verif
namespace MM

/-- The calls of a program, without those of `New`. -/
def callsOf : List Act → List (Nat × MOp)
  | [] => []
  | .new :: as => callsOf as
  | .call k op :: as => (k, op) :: callsOf as

/-- How many managers a program makes. -/
def made : List Act → Nat
  | [] => 0
  | .new :: as => made as + 1
  | .call _ _ :: as => made as

/-- The program with `n` more managers. -/
def World.more (W : World) (n : Nat) : World := { W with mgrs := W.mgrs ++ List.replicate n {} }

theorem view_more {W : World} {n k : Nat} {v : Mgr} (h : W.view k = some v) : (W.more n).view k = some v := by
  obtain ⟨m, hm, rfl⟩ := Option.map_eq_some_iff.1 h
  have hk : k < W.mgrs.length := (List.getElem?_eq_some_iff.1 hm).1
  simp [World.view, World.more, List.getElem?_append_left hk, hm]

theorem put_more {W : World} {n k : Nat} {v : Mgr} (h : W.view k = some v) (m : Mgr) :
    (W.more n).put k m = (W.put k m).more n := by
  obtain ⟨_, hm, rfl⟩ := Option.map_eq_some_iff.1 h
  have hk : k < W.mgrs.length := (List.getElem?_eq_some_iff.1 hm).1
  simp only [World.put, World.more, List.set_append_left _ _ hk]

theorem within_more {W W' : World} {n k : Nat} {op : MOp} (h : W.within k op = .ok W') :
    (W.more n).within k op = .ok (W'.more n) := by
  unfold World.within at h ⊢
  cases hv : W.view k with
  | none => rw [hv] at h; cases h
  | some v =>
    rw [hv] at h
    rw [view_more hv]
    obtain ⟨m, hm, rfl⟩ := Out.map_eq_ok.1 h
    exact Out.map_eq_ok.2 ⟨m, hm, put_more hv m⟩

theorem through_more {W W' : World} {n c : Nat} {op : MOp} (h : W.through c op = .ok W') :
    (W.more n).through c op = .ok (W'.more n) := by
  obtain ⟨o, k, b1, b2, b3⟩ := through_ok h
  unfold World.through
  rw [show (W.more n).objs = W.objs from rfl, b1]
  simp only [b2]
  exact within_more b3

theorem addDescendant_more {n c : Nat} {ds : List Nat} : ∀ {W W' : World}, W.addDescendant c ds = .ok W' →
    (W.more n).addDescendant c ds = .ok (W'.more n) := by
  induction ds with
  | nil => intro W W' h; cases h; rfl
  | cons d ds ih =>
    intro W W' h
    unfold World.addDescendant at h ⊢
    rw [show (W.more n).objs = W.objs from rfl]
    cases hc : W.objs[c]? with
    | none => rw [hc] at h; cases h
    | some co =>
      cases hd : W.objs[d]? with
      | none => rw [hc, hd] at h; cases h
      | some dob =>
        rw [hc, hd] at h
        dsimp only at h ⊢
        have e : (if (co.desc.get dob.id).isSome = true then W.more n
            else { W.more n with objs := W.objs.set c { co with desc := co.desc.set dob.id d } }) =
            (if (co.desc.get dob.id).isSome = true then W
              else { W with objs := W.objs.set c { co with desc := co.desc.set dob.id d } }).more n := by
          split <;> rfl
        rw [e]
        cases hn : co.defNs with
        | none => rw [hn] at h; exact ih h
        | some x =>
          rw [hn] at h
          obtain ⟨W2, h2, h⟩ := Out.bind_eq_ok.1 h
          obtain ⟨W3, h3, h⟩ := Out.bind_eq_ok.1 h
          exact Out.bind_eq_ok.2 ⟨_, through_more h2, Out.bind_eq_ok.2 ⟨_, through_more h3, ih h⟩⟩

theorem call_more {W W' : World} {n k : Nat} {op : MOp} (h : W.call k op = .ok W') :
    (W.more n).call k op = .ok (W'.more n) := by
  cases op
  case role op =>
    obtain ⟨x, hx, rfl⟩ := Out.map_eq_ok.1 h
    exact Out.map_eq_ok.2 ⟨x, hx, rfl⟩
  case newTenant id => cases h; rfl
  case tAddDescendant c ds => exact addDescendant_more h
  case tAddPrincipal c p m rs =>
    cases rs with
    | nil => cases h; rfl
    | cons r rs => exact through_more (op := .tAddPrincipal c p m (r :: rs)) h
  case tAssignScopes c p m rs =>
    cases rs with
    | nil => cases h; rfl
    | cons r rs => exact through_more (op := .tAssignScopes c p m (r :: rs)) h
  all_goals first
    | exact through_more (W := W) h
    | exact within_more (W := W) h

theorem more_more (W : World) (a b : Nat) : (W.more a).more b = W.more (a + b) := by
  simp [World.more]

theorem act_run {as : List Act} : ∀ {W W' : World}, W.act as = .ok W' → (W.more (made as)).run (callsOf as) = .ok W' := by
  induction as with
  | nil => intro W W' h; cases h; simp [callsOf, made, World.more, World.run]
  | cons a as ih =>
    intro W W' h
    cases a with
    | new =>
      have := ih (W := W.make) h
      rw [show W.make = W.more 1 from rfl, more_more, Nat.add_comm] at this
      exact this
    | call k op =>
      obtain ⟨W1, h1, h2⟩ := Out.bind_eq_ok.1 h
      exact Out.bind_eq_ok.2 ⟨_, call_more h1, ih h2⟩

/-- C110, C111. A program that makes managers at any time ends as the one that makes all of them first. -/
theorem C110_made {as : List Act} {W : World} (h : World.act {} as = .ok W) :
    (World.new (made as)).run (callsOf as) = .ok W := act_run h

/-- C110. A manager that shares no tenant with others has, whenever it and the others were made, what it has after its own
calls alone. -/
theorem C110_made_alone_partial {as : List Act} {k : Nat} (hk : k < made as) {mine : Nat → Bool} {W : World}
    (hf : ∀ j op, Act.call j op ∈ as → Fits k mine j op) (h : World.act {} as = .ok W) :
    ∃ ops v w, Projects k mine (callsOf as) ops ∧ W.view k = some v ∧ MOp.run {} ops = .ok w ∧
      w = { v with tobjs := w.tobjs } ∧ (∀ c, mine c = true → w.tobjs[c]? = v.tobjs[c]?) ∧
      ∀ o fuel site p opts b, (∃ w', w.authorize o fuel site p opts = .ok (b, w')) ↔
        ∃ v', v.authorize o fuel site p opts = .ok (b, v') := by
  refine C110_alone_partial hk (fun x hx => ?_) (C110_made h)
  refine hf _ _ ?_
  clear hk hf h
  induction as with
  | nil => cases hx
  | cons a as ih =>
    cases a with
    | new => exact List.mem_cons_of_mem _ (ih hx)
    | call k op =>
      rcases List.mem_cons.1 hx with rfl | hx
      · exact List.mem_cons_self
      · exact List.mem_cons_of_mem _ (ih hx)

/-- C111. Whenever the managers were made, a tenant points to the one it was added to last. -/
theorem C111_made_manager {as : List Act} {W : World} (h : World.act {} as = .ok W) (c : Nat) :
    W.manager c = lastAdded c (callsOf as) := C111_manager (C110_made h) c

/-- C111. A method of the tenant then takes effect there, and in no other manager. -/
theorem C111_made_rows_partial {as : List Act} {W W' : World} (h : World.act {} as = .ok W) {j c : Nat} {op : MOp}
    (hr : receiver op = some c) (hl : Local op) (hc : W.call j op = .ok W') :
    (∀ k v, lastAdded c (callsOf as) = some k → W.view k = some v → ∃ v', W'.view k = some v' ∧ op.apply v = .ok v') ∧
      ∀ k, lastAdded c (callsOf as) ≠ some k → W'.mgrs[k]? = W.mgrs[k]? := C111_rows_partial (C110_made h) hr hl hc

/-! ### Cases -/

/-- A manager with a tenant; a second manager made afterwards, to which the tenant is added too. -/
def later : List Act :=
  [.new, .call 0 (.newTenant (str "t")), .call 0 (.addTenant 0), .call 0 (.addPrincipal (str "p") 0),
    .new, .call 1 (.addTenant 0),
    .call 0 (.tAddPrincipalInNamespace 0 (str "p") (str "n") (str "r"))]

/-- C111. The row is in the manager made later. -/
example : made later = 2 ∧ lastAdded 0 (callsOf later) = some 1 ∧ (World.act {} later).Chk fun W =>
    W.stored 0 = [] ∧ (W.stored 1).map (·.principal) = [.str (str "p")] :=
  ⟨rfl, rfl, by decide +kernel⟩

/-- A call on a manager that is made afterwards panics. -/
example : (World.act {} [.call 0 (.newTenant (str "t")), .call 0 (.addTenant 0), .new]) = .panic := by rfl

/-- C110. The hypotheses hold: a second manager made between the calls on the first one, with a tenant of its own. -/
def between : List Act :=
  [.new, .call 0 (.newTenant (str "t")), .call 0 (.newTenant (str "u")), .call 0 (.addTenant 0),
    .call 0 (.addPrincipal (str "p") 0), .new, .call 1 (.addTenant 1), .call 1 (.addPrincipal (str "p") 0),
    .call 0 (.tAddPrincipalInNamespace 0 (str "p") (str "n") (str "r"))]

example : (0 < made between) ∧ (∀ j op, Act.call j op ∈ between → Fits 0 (fun c => c = 0) j op) ∧
    (World.act {} between).Chk fun W =>
      W.decision 0 (str "p") [.tenant (.str (str "t"))] = .ok true ∧
      W.decision 1 (str "p") [.tenant (.str (str "u"))] = .ok false := by
  refine ⟨by decide, ?_, by decide +kernel⟩
  intro j op hx
  simp only [between, List.mem_cons, List.not_mem_nil, or_false, Act.call.injEq, reduceCtorEq, false_or] at hx
  rcases hx with ⟨rfl, rfl⟩ | ⟨rfl, rfl⟩ | ⟨rfl, rfl⟩ | ⟨rfl, rfl⟩ | ⟨rfl, rfl⟩ | ⟨rfl, rfl⟩ | ⟨rfl, rfl⟩ <;> simp [Fits]

end MM
end Verif
