import Mathlib.Data.List.Basic
import Verif.Model.RoleConc

/-!
# Lemmas about goroutines changing roles
-/

namespace Verif
namespace GC

/-- The role a mutator checks the lock of, and where it goes on. -/
def Call.entry : Call → Option (Nat × Spot)
  | .grant r _ _ => some (r, .group)
  | .addGroup r _ => some (r, .gget)
  | .descend r ds => some (r, .dget ds)
  | _ => none

/-- The kinds of accesses. -/
inductive Acc (h : RHeap) : Call → Spot → RHeap → Next → Prop
  | shut {call : Call} {r : Nat} {s : Spot} {ro : RoleObj} : call.entry = some (r, s) → h.roles[r]? = some ro →
      ro.lock = true → Acc h call .gate h (.ret (some .changesNotAllowed))
  | enter {call : Call} {r : Nat} {s : Spot} {ro : RoleObj} : call.entry = some (r, s) → h.roles[r]? = some ro →
      ro.lock = false → Acc h call .gate h (.at s)
  | found {r : Nat} {g : Str} {as : List Attr} {ro : RoleObj} {ga : Nat} : h.roles[r]? = some ro →
      ro.perms.get g = some ga → Acc h (.grant r g as) .group h (.at (.keep ga as))
  | fresh {r : Nat} {g : Str} {as : List Attr} {ro : RoleObj} : h.roles[r]? = some ro →
      ro.perms.get g = none →
      Acc h (.grant r g as) .group { h with groups := h.groups ++ [{ id := g }] } (.at (.keep h.groups.length as))
  | has {r : Nat} {g : Str} {as0 : List Attr} {ga : Nat} {a : Attr} {as : List Attr} {G : GroupObj} :
      h.groups[ga]? = some G → (G.perms.get a.toStr).isSome →
      Acc h (.grant r g as0) (.keep ga (a :: as)) h (.at (.keep ga as))
  | lacks {r : Nat} {g : Str} {as0 : List Attr} {ga : Nat} {a : Attr} {as : List Attr} {G : GroupObj} :
      h.groups[ga]? = some G → G.perms.get a.toStr = none →
      Acc h (.grant r g as0) (.keep ga (a :: as)) h (.at (.attr ga a as))
  | put {r : Nat} {g : Str} {as0 : List Attr} {ga : Nat} {a : Attr} {as : List Attr} {G : GroupObj} :
      h.groups[ga]? = some G →
      Acc h (.grant r g as0) (.attr ga a as)
        { h with groups := h.groups.set ga { G with perms := G.perms.set a.toStr a } } (.at (.keep ga as))
  | store {r : Nat} {g : Str} {as0 : List Attr} {ga : Nat} {ro : RoleObj} : h.roles[r]? = some ro →
      Acc h (.grant r g as0) (.keep ga [])
        { h with roles := h.roles.set r { ro with perms := ro.perms.set g ga } } (.ret none)
  | gthere {r ga : Nat} {ro : RoleObj} {G : GroupObj} : h.roles[r]? = some ro → h.groups[ga]? = some G →
      (ro.perms.get G.id).isSome → Acc h (.addGroup r ga) .gget h (.ret none)
  | gabsent {r ga : Nat} {ro : RoleObj} {G : GroupObj} : h.roles[r]? = some ro → h.groups[ga]? = some G →
      ro.perms.get G.id = none → Acc h (.addGroup r ga) .gget h (.at .gset)
  | gset {r ga : Nat} {ro : RoleObj} {G : GroupObj} : h.roles[r]? = some ro → h.groups[ga]? = some G →
      Acc h (.addGroup r ga) .gset
        { h with roles := h.roles.set r { ro with perms := ro.perms.set G.id ga } } (.ret none)
  | dnil {r : Nat} {ds : List Nat} : Acc h (.descend r ds) (.dget []) h (.ret none)
  | dthere {r : Nat} {ds0 : List Nat} {d : Nat} {ds : List Nat} {dro ro : RoleObj} : h.roles[d]? = some dro →
      h.roles[r]? = some ro → (ro.desc.get dro.id).isSome →
      Acc h (.descend r ds0) (.dget (d :: ds)) h (.at (.dget ds))
  | dabsent {r : Nat} {ds0 : List Nat} {d : Nat} {ds : List Nat} {dro ro : RoleObj} : h.roles[d]? = some dro →
      h.roles[r]? = some ro → ro.desc.get dro.id = none →
      Acc h (.descend r ds0) (.dget (d :: ds)) h (.at (.dset d ds))
  | dset {r : Nat} {ds0 : List Nat} {d : Nat} {ds : List Nat} {dro ro : RoleObj} : h.roles[d]? = some dro →
      h.roles[r]? = some ro →
      Acc h (.descend r ds0) (.dset d ds)
        { h with roles := h.roles.set r { ro with desc := ro.desc.set dro.id d } } (.at (.dget ds))
  | lock {r : Nat} {b : Bool} {ro : RoleObj} : h.roles[r]? = some ro →
      Acc h (.setLock r b) .write { h with roles := h.roles.set r { ro with lock := b } } (.ret none)
  | fnil {ga : Nat} {as : List Attr} : Acc h (.fill ga as) (.fill []) h (.ret none)
  | fset {ga : Nat} {as0 : List Attr} {a : Attr} {as : List Attr} {G : GroupObj} : h.groups[ga]? = some G →
      Acc h (.fill ga as0) (.fill (a :: as))
        { h with groups := h.groups.set ga { G with perms := G.perms.set a.toStr a } } (.at (.fill as))

theorem gate_acc {h h' : RHeap} {r : Nat} {s : Spot} {n : Next} {call : Call} (he : call.entry = some (r, s))
    (e : gate h r s = some (h', n)) : Acc h call .gate h' n := by
  unfold gate at e
  split at e
  · cases e
  · rename_i ro hr
    cases hl : ro.lock with
    | true => rw [hl] at e; cases e; exact .shut he hr hl
    | false => rw [hl] at e; cases e; exact .enter he hr hl

theorem step1_acc {h h' : RHeap} {call : Call} {s : Spot} {n : Next} (e : step1 h call s = some (h', n)) :
    Acc h call s h' n := by
  unfold step1 at e
  split at e
  · exact gate_acc rfl e
  · split at e
    · cases e
    · rename_i ro hr
      split at e
      · rename_i ga hg; cases e; exact .found hr hg
      · rename_i hg; cases e; exact .fresh hr hg
  · rename_i ga a as
    split at e
    · cases e
    · rename_i G hG
      cases hx : G.perms.get a.toStr with
      | none => rw [hx] at e; cases e; exact .lacks hG hx
      | some b => rw [hx] at e; cases e; exact .has hG (by rw [hx]; rfl)
  · split at e
    · cases e
    · rename_i G hG; cases e; exact .put hG
  · split at e
    · cases e
    · rename_i ro hr; cases e; exact .store hr
  · exact gate_acc rfl e
  · split at e
    · rename_i ro G hr hG
      cases hx : ro.perms.get G.id with
      | none => rw [hx] at e; cases e; exact .gabsent hr hG hx
      | some b => rw [hx] at e; cases e; exact .gthere hr hG (by rw [hx]; rfl)
    · cases e
  · split at e
    · rename_i ro G hr hG
      cases e; exact .gset hr hG
    · cases e
  · exact gate_acc rfl e
  · cases e; exact .dnil
  · split at e
    · rename_i dro ro hd hr
      cases hx : ro.desc.get dro.id with
      | none => rw [hx] at e; cases e; exact .dabsent hd hr hx
      | some b => rw [hx] at e; cases e; exact .dthere hd hr (by rw [hx]; rfl)
    · cases e
  · split at e
    · rename_i dro ro hd hr
      cases e; exact .dset hd hr
    · cases e
  · split at e
    · cases e
    · rename_i ro hr; cases e; exact .lock hr
  · cases e; exact .fnil
  · split at e
    · cases e
    · rename_i G hG; cases e; exact .fset hG
  · cases e

/-- The kinds of steps. -/
theorem step_cases {c c' : Conf} {i : Nat} (e : c.step i = some c') :
    ∃ t t', c.ts[i]? = some t ∧ c'.ts[i]? = some t' ∧ c'.ts = c.ts.set i t' ∧
      (∀ j, j ≠ i → c'.ts[j]? = c.ts[j]?) ∧
      ((∃ call rest, t.cur = none ∧ t.todo = call :: rest ∧ c'.heap = c.heap ∧
          t' = { t with cur := some (call, call.first), todo := rest }) ∨
       (∃ call s s', t.cur = some (call, s) ∧ Acc c.heap call s c'.heap (.at s') ∧
          t' = { t with cur := some (call, s') }) ∨
       (∃ call s er, t.cur = some (call, s) ∧ Acc c.heap call s c'.heap (.ret er) ∧
          t' = { t with cur := none, out := t.out ++ [(call, er)] })) := by
  unfold Conf.step at e
  split at e
  · cases e
  · rename_i t ht
    have hl := (List.getElem?_eq_some_iff.1 ht).1
    have key : ∀ t' : Thread, (c.ts.set i t')[i]? = some t' ∧ ∀ j, j ≠ i → (c.ts.set i t')[j]? = c.ts[j]? :=
      fun t' => ⟨List.getElem?_set_self hl, fun j hj => List.getElem?_set_ne (fun h => hj h.symm)⟩
    refine ⟨t, ?_⟩
    split at e
    · rename_i hc
      split at e
      · cases e
      · rename_i call rest hr
        cases e
        exact ⟨_, ht, (key _).1, rfl, (key _).2, Or.inl ⟨call, rest, hc, hr, rfl, rfl⟩⟩
    · rename_i call s hc
      split at e
      · cases e
      · rename_i h s' h1
        cases e
        exact ⟨_, ht, (key _).1, rfl, (key _).2, Or.inr (Or.inl ⟨call, s, s', hc, step1_acc h1, rfl⟩)⟩
      · rename_i h er h1
        cases e
        exact ⟨_, ht, (key _).1, rfl, (key _).2, Or.inr (Or.inr ⟨call, s, er, hc, step1_acc h1, rfl⟩)⟩

theorem run_inv {P : Conf → Prop} (hP : ∀ c c' i, P c → c.step i = some c' → P c') :
    ∀ (is : List Nat) {c c' : Conf}, P c → c.run is = some c' → P c' := by
  intro is
  induction is with
  | nil => intro c c' h e; cases e; exact h
  | cons i is ih =>
    intro c c' h e
    simp only [Conf.run, Option.bind_eq_some_iff] at e
    obtain ⟨c1, h1, h2⟩ := e
    exact ih (hP c c1 i h h1) h2

theorem mem_ts {c c' : Conf} {i : Nat} {t' u : Thread} (h : c'.ts = c.ts.set i t') (hu : u ∈ c'.ts) :
    u = t' ∨ u ∈ c.ts := by
  rw [h] at hu
  rcases List.mem_or_eq_of_mem_set hu with h | h
  · exact Or.inr h
  · exact Or.inl h

/-- The calls a goroutine has begun. -/
def Thread.begun (t : Thread) : List Call := t.out.map (·.1) ++ t.cur.toList.map (·.1)

/-- Some goroutine has begun the call. -/
def Conf.Begun (c : Conf) (call : Call) : Prop := ∃ t ∈ c.ts, call ∈ t.begun

theorem begun_cur {c : Conf} {t : Thread} {call : Call} {s : Spot} (ht : t ∈ c.ts) (h : t.cur = some (call, s)) :
    c.Begun call := ⟨t, ht, by simp [Thread.begun, h]⟩

theorem begun_mono {c c' : Conf} {i : Nat} (e : c.step i = some c') {call : Call}
    (h : c.Begun call) : c'.Begun call := by
  obtain ⟨t, t', ht, ht', _, ho, hk⟩ := step_cases e
  obtain ⟨u, hu, hx⟩ := h
  obtain ⟨j, hj⟩ := List.getElem?_of_mem hu
  by_cases hji : j = i
  · subst hji
    have hut : u = t := Option.some.inj (hj.symm.trans ht)
    subst hut
    refine ⟨t', List.mem_of_getElem? ht', ?_⟩
    rcases hk with ⟨call, rest, h1, _, _, rfl⟩ | ⟨_, _, _, h1, _, rfl⟩ | ⟨_, _, _, h1, _, rfl⟩
    · simp only [Thread.begun, h1, Option.toList_none, List.map_nil, List.append_nil] at hx
      exact List.mem_append_left _ hx
    all_goals simpa [Thread.begun, h1] using hx
  · exact ⟨u, List.mem_of_getElem? (i := j) (by rw [ho j hji]; exact hj), hx⟩

/-- A goroutine makes the given calls in order. -/
def Prog (calls : List (List Call)) (c : Conf) : Prop :=
  ∀ (j : Nat) (t : Thread), c.ts[j]? = some t → calls[j]? = some (t.begun ++ t.todo)

theorem prog_start (h : RHeap) (calls : List (List Call)) : Prog calls (.start h calls) := by
  intro j t ht
  simp only [Conf.start, List.getElem?_map, Option.map_eq_some_iff] at ht
  obtain ⟨l, h1, rfl⟩ := ht
  simpa [Thread.begun] using h1

theorem prog_step {calls : List (List Call)} {c c' : Conf} {i : Nat} (h : Prog calls c) (e : c.step i = some c') :
    Prog calls c' := by
  intro j u hu
  obtain ⟨t, t', ht, ht', _, ho, hk⟩ := step_cases e
  by_cases hji : j = i
  · subst hji
    rw [ht'] at hu; cases hu
    rw [h j t ht]
    rcases hk with ⟨call, rest, h1, h2, _, rfl⟩ | ⟨_, _, _, h1, _, rfl⟩ | ⟨_, _, _, h1, _, rfl⟩
    · simp [Thread.begun, h1, h2]
    all_goals simp [Thread.begun, h1]
  · exact h j u (by rw [← ho j hji]; exact hu)

/-- Groups keep their ids and the texts they have. -/
def Grow (h h' : RHeap) : Prop :=
  ∀ (ga : Nat) (G : GroupObj), h.groups[ga]? = some G → ∃ G', h'.groups[ga]? = some G' ∧ G'.id = G.id ∧
    ∀ x, (G.perms.get x).isSome → (G'.perms.get x).isSome

theorem Grow.refl (h : RHeap) : Grow h h := fun _ G hG => ⟨G, hG, rfl, fun _ h => h⟩

theorem Grow.trans {h1 h2 h3 : RHeap} (a : Grow h1 h2) (b : Grow h2 h3) : Grow h1 h3 := by
  intro ga G hG
  obtain ⟨G1, h1, i1, k1⟩ := a ga G hG
  obtain ⟨G2, h2, i2, k2⟩ := b ga G1 h1
  exact ⟨G2, h2, i2.trans i1, fun x h => k2 x (k1 x h)⟩

theorem grow_set {h : RHeap} {ga : Nat} {G : GroupObj} (hG : h.groups[ga]? = some G) (a : Attr) :
    Grow h { h with groups := h.groups.set ga { G with perms := G.perms.set a.toStr a } } := by
  intro gb B hB
  by_cases hab : gb = ga
  · subst hab
    rw [hG] at hB; cases hB
    refine ⟨_, List.getElem?_set_self (List.getElem?_eq_some_iff.1 hG).1, rfl, fun x hx => ?_⟩
    simp only [GoMap.get_set]
    split
    · rfl
    · exact hx
  · exact ⟨B, by simpa [List.getElem?_set_ne (fun h => hab h.symm)] using hB, rfl, fun _ h => h⟩

theorem Acc.grow {h h' : RHeap} {call : Call} {s : Spot} {n : Next} (a : Acc h call s h' n) : Grow h h' := by
  cases a with
  | fresh => intro ga G hG; exact ⟨G, by rw [← hG]; exact List.getElem?_append_left (List.getElem?_eq_some_iff.1 hG).1, rfl, fun _ h => h⟩
  | put hG => exact grow_set hG _
  | fset hG => exact grow_set hG _
  | _ => exact fun _ G hG => ⟨G, hG, rfl, fun _ h => h⟩

theorem step_grow {c c' : Conf} {i : Nat} (e : c.step i = some c') : Grow c.heap c'.heap := by
  obtain ⟨t, t', _, _, _, _, hk⟩ := step_cases e
  rcases hk with ⟨_, _, _, _, hh, _⟩ | ⟨_, _, _, _, a, _⟩ | ⟨_, _, _, _, a, _⟩
  · rw [hh]; exact Grow.refl _
  · exact a.grow
  · exact a.grow

/-- The group a role has under a name. -/
def slot (h : RHeap) (r : Nat) (g : Str) : Option Nat := (h.roles[r]?).bind fun ro => ro.perms.get g

theorem slot_set {h : RHeap} {r' : Nat} {ro ro' : RoleObj} (hr : h.roles[r']? = some ro) (r : Nat) (g : Str) :
    slot { h with roles := h.roles.set r' ro' } r g = if r' = r then ro'.perms.get g else slot h r g := by
  unfold slot
  simp only [List.getElem?_set]
  split
  · rw [if_pos (List.getElem?_eq_some_iff.1 hr).1]; rfl
  · rfl

theorem slot_of {h : RHeap} {r : Nat} {ro : RoleObj} (hr : h.roles[r]? = some ro) (g : Str) :
    slot h r g = ro.perms.get g := by simp [slot, hr]

/-- The call may set what role `r` has under `g`. -/
def Call.touches (h0 : RHeap) (r : Nat) (g : Str) : Call → Prop
  | .grant r' g' _ => r' = r ∧ g' = g
  | .addGroup r' ga => r' = r ∧ ∀ G, h0.groups[ga]? = some G → G.id = g
  | _ => False

/-- How an access changes a slot. -/
theorem Acc.slot {h h' : RHeap} {call : Call} {s : Spot} {n : Next} (a : Acc h call s h' n) (r : Nat) (g : Str) :
    GC.slot h' r g = GC.slot h r g ∨
    (∃ as ga, call = .grant r g as ∧ s = .keep ga [] ∧ GC.slot h' r g = some ga) ∨
    (∃ ga G, call = .addGroup r ga ∧ s = .gset ∧ h.groups[ga]? = some G ∧ G.id = g ∧ GC.slot h' r g = some ga) := by
  cases a with
  | store hr =>
    rename_i r' g' as ga ro
    rw [slot_set hr]
    by_cases hrr : r' = r
    · subst hrr
      rw [if_pos rfl, GoMap.get_set]
      by_cases hg : g' = g
      · subst hg
        exact Or.inr (Or.inl ⟨as, ga, rfl, rfl, if_pos rfl⟩)
      · left
        rw [if_neg, slot_of hr]
        exact hg
    · left; rw [if_neg hrr]
  | gset hr hG =>
    rename_i r' ga ro G
    rw [slot_set hr]
    by_cases hrr : r' = r
    · subst hrr
      rw [if_pos rfl, GoMap.get_set]
      by_cases hg : G.id = g
      · subst hg
        exact Or.inr (Or.inr ⟨ga, G, rfl, rfl, hG, rfl, if_pos rfl⟩)
      · left
        rw [if_neg, slot_of hr]
        exact hg
    · left; rw [if_neg hrr]
  | dset _ hr =>
    left
    rw [slot_set hr]
    split
    · rename_i hrr; subst hrr; rw [slot_of hr]
    · rfl
  | lock hr =>
    left
    rw [slot_set hr]
    split
    · rename_i hrr; subst hrr; rw [slot_of hr]
    · rfl
  | _ => exact Or.inl rfl

/-- How a goroutine gets to the loop of `AddPermission`. -/
theorem Acc.to_keep {h h' : RHeap} {r : Nat} {g : Str} {as0 as : List Attr} {ga : Nat} {s : Spot}
    (a : Acc h (.grant r g as0) s h' (.at (.keep ga as))) :
    (s = .group ∧ h' = h ∧ GC.slot h r g = some ga ∧ as = as0) ∨
    (s = .group ∧ h' = { h with groups := h.groups ++ [{ id := g }] } ∧ GC.slot h r g = none ∧
      ga = h.groups.length ∧ as = as0) ∨
    (∃ b G, s = .keep ga (b :: as) ∧ h' = h ∧ h.groups[ga]? = some G ∧ (G.perms.get b.toStr).isSome) ∨
    (∃ b G, s = .attr ga b as ∧ h.groups[ga]? = some G ∧
      h' = { h with groups := h.groups.set ga { G with perms := G.perms.set b.toStr b } }) := by
  cases a with
  | enter he _ _ => cases he
  | found hr hg => exact Or.inl ⟨rfl, rfl, by rw [slot_of hr, hg], rfl⟩
  | fresh hr hg => exact Or.inr (Or.inl ⟨rfl, rfl, by rw [slot_of hr, hg], rfl, rfl⟩)
  | has hG hx => exact Or.inr (Or.inr (Or.inl ⟨_, _, rfl, rfl, hG, hx⟩))
  | put hG => exact Or.inr (Or.inr (Or.inr ⟨_, _, rfl, hG, rfl⟩))

/-- How a goroutine gets to `perm.Set`. -/
theorem Acc.to_attr {h h' : RHeap} {r : Nat} {g : Str} {as0 as : List Attr} {b : Attr} {ga : Nat} {s : Spot}
    (a : Acc h (.grant r g as0) s h' (.at (.attr ga b as))) :
    s = .keep ga (b :: as) ∧ h' = h := by
  cases a with
  | enter he _ _ => cases he
  | lacks hG hx => exact ⟨rfl, rfl⟩

/-- How a goroutine gets to the `Set` of `AddPermissionResourceGroup`. -/
theorem Acc.to_gset {h h' : RHeap} {r ga : Nat} {s : Spot} (a : Acc h (.addGroup r ga) s h' (.at .gset)) :
    s = .gget ∧ h' = h ∧ ∃ ro G, h.roles[r]? = some ro ∧ h.groups[ga]? = some G ∧ ro.perms.get G.id = none := by
  cases a with
  | enter he _ _ => cases he
  | gabsent hr hG hx => exact ⟨rfl, rfl, _, _, hr, hG, hx⟩

/-- How `AddPermission` returns without error. -/
theorem Acc.granted {h h' : RHeap} {r : Nat} {g : Str} {as0 : List Attr} {s : Spot}
    (a : Acc h (.grant r g as0) s h' (.ret none)) :
    ∃ ga ro, s = .keep ga [] ∧ h.roles[r]? = some ro ∧
      h' = { h with roles := h.roles.set r { ro with perms := ro.perms.set g ga } } := by
  cases a with
  | store hr => exact ⟨_, _, rfl, hr, rfl⟩

/-- Where the attributes of a group come from. -/
theorem Acc.attrs {h h' : RHeap} {call : Call} {s : Spot} {n : Next} (a : Acc h call s h' n) {ga : Nat}
    {G' : GroupObj} {x : Str} {b : Attr} (hG' : h'.groups[ga]? = some G') (hx : G'.perms.get x = some b) :
    (∃ G, h.groups[ga]? = some G ∧ G.perms.get x = some b) ∨
    (x = b.toStr ∧ ((∃ r g as0 as, call = .grant r g as0 ∧ s = .attr ga b as) ∨
      ∃ as0 as, call = .fill ga as0 ∧ s = .fill (b :: as))) := by
  have key : ∀ {gb : Nat} {G : GroupObj} {d : Attr}, h.groups[gb]? = some G →
      (h.groups.set gb { G with perms := G.perms.set d.toStr d })[ga]? = some G' →
      (∃ G, h.groups[ga]? = some G ∧ G.perms.get x = some b) ∨ (x = b.toStr ∧ gb = ga ∧ d = b) := by
    intro gb G d hG h1
    by_cases hab : gb = ga
    · subst hab
      rw [List.getElem?_set_self (List.getElem?_eq_some_iff.1 hG).1] at h1
      cases h1
      simp only [GoMap.get_set] at hx
      split at hx
      · rename_i hxd
        cases hx
        exact Or.inr ⟨hxd.symm, rfl, rfl⟩
      · exact Or.inl ⟨G, hG, hx⟩
    · rw [List.getElem?_set_ne hab] at h1
      exact Or.inl ⟨G', h1, hx⟩
  cases a with
  | fresh =>
    by_cases hl : ga < h.groups.length
    · exact Or.inl ⟨G', by rw [← hG']; exact (List.getElem?_append_left hl).symm, hx⟩
    · have h1 := hG'
      simp only [List.getElem?_append, if_neg hl, List.getElem?_singleton] at h1
      split at h1
      · cases h1; cases hx
      · cases h1
  | put hG =>
    rcases key hG hG' with h1 | ⟨h1, rfl, rfl⟩
    · exact Or.inl h1
    · exact Or.inr ⟨h1, Or.inl ⟨_, _, _, _, rfl, rfl⟩⟩
  | fset hG =>
    rcases key hG hG' with h1 | ⟨h1, rfl, rfl⟩
    · exact Or.inl h1
    · exact Or.inr ⟨h1, Or.inr ⟨_, _, rfl, rfl⟩⟩
  | _ => exact Or.inl ⟨G', hG', hx⟩

theorem Acc.len {h h' : RHeap} {call : Call} {s : Spot} {n : Next} (a : Acc h call s h' n) :
    h.groups.length ≤ h'.groups.length := by
  cases a <;> simp

/-- How a goroutine gets from attribute to attribute in `AddAttributes`. -/
theorem Acc.to_fill {h h' : RHeap} {ga : Nat} {as0 as : List Attr} {s : Spot}
    (a : Acc h (.fill ga as0) s h' (.at (.fill as))) : ∃ b, s = .fill (b :: as) := by
  cases a with
  | enter he _ _ => cases he
  | fset _ => exact ⟨_, rfl⟩

end GC
end Verif
