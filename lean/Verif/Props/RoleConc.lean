import Verif.Lemmas.RoleConc
import Verif.Spec.Role

/-!
# Changing roles from several goroutines (C91, C92)
-/

namespace Verif
namespace GC

/-- Role `r` has an attribute with text `x` in its group `g`. -/
def Holds (h : RHeap) (r : Nat) (g x : Str) : Prop :=
  ∃ ro ga G, h.roles[r]? = some ro ∧ ro.perms.get g = some ga ∧ h.groups[ga]? = some G ∧ (G.perms.get x).isSome

theorem holds_iff {h : RHeap} {r : Nat} {g x : Str} :
    Holds h r g x ↔ ∃ ga G, slot h r g = some ga ∧ h.groups[ga]? = some G ∧ (G.perms.get x).isSome := by
  constructor
  · rintro ⟨ro, ga, G, h1, h2, h3, h4⟩
    exact ⟨ga, G, by rw [slot_of h1, h2], h3, h4⟩
  · rintro ⟨ga, G, h1, h2, h3⟩
    simp only [slot, Option.bind_eq_some_iff] at h1
    obtain ⟨ro, h4, h5⟩ := h1
    exact ⟨ro, ga, G, h4, h5, h2, h3⟩

/-- Role `r` has a group `g` from the start, or only one goroutine may give it one. -/
def Calm (h0 : RHeap) (calls : List (List Call)) (r : Nat) (g : Str) : Prop :=
  (∃ ro, h0.roles[r]? = some ro ∧ (ro.perms.get g).isSome) ∨
  ∀ (i j : Nat) (l m : List Call), calls[i]? = some l → calls[j]? = some m →
    ∀ x ∈ l, ∀ y ∈ m, x.touches h0 r g → y.touches h0 r g → i = j

/-- What is known while only one group is, or will be, the group `g` of `r`. -/
structure Inv (h0 : RHeap) (r : Nat) (g : Str) (c : Conf) : Prop where
  first : ∀ ga, slot h0 r g = some ga → slot c.heap r g = some ga
  grow : Grow h0 c.heap
  live : ∀ ga, slot c.heap r g = some ga → ∃ G, c.heap.groups[ga]? = some G
  keep : ∀ t ∈ c.ts, ∀ as0 ga as, t.cur = some (.grant r g as0, .keep ga as) →
    (slot c.heap r g = none ∨ slot c.heap r g = some ga) ∧
    ∃ G, c.heap.groups[ga]? = some G ∧ ∀ b ∈ as0, b ∈ as ∨ (G.perms.get b.toStr).isSome
  attr : ∀ t ∈ c.ts, ∀ as0 ga a as, t.cur = some (.grant r g as0, .attr ga a as) →
    (slot c.heap r g = none ∨ slot c.heap r g = some ga) ∧
    ∃ G, c.heap.groups[ga]? = some G ∧ ∀ b ∈ as0, b ∈ a :: as ∨ (G.perms.get b.toStr).isSome
  gset : ∀ t ∈ c.ts, ∀ ga, t.cur = some (.addGroup r ga, .gset) →
    ∃ G, c.heap.groups[ga]? = some G ∧ (G.id = g → slot c.heap r g = none)
  out : ∀ t ∈ c.ts, ∀ as, (Call.grant r g as, none) ∈ t.out →
    ∃ ga G, slot c.heap r g = some ga ∧ c.heap.groups[ga]? = some G ∧ ∀ b ∈ as, (G.perms.get b.toStr).isSome

theorem inv_start {h0 : RHeap} (ok : Spec.RHeap.OK h0) {calls : List (List Call)} {r : Nat} {g : Str} :
    Inv h0 r g (.start h0 calls) := by
  have hc : ∀ t ∈ (Conf.start h0 calls).ts, t.cur = none ∧ t.out = [] := by
    intro t ht
    simp only [Conf.start, List.mem_map] at ht
    obtain ⟨l, _, rfl⟩ := ht
    exact ⟨rfl, rfl⟩
  refine ⟨fun _ h => h, Grow.refl _, ?_, ?_, ?_, ?_, ?_⟩
  · intro ga h
    simp only [slot, Option.bind_eq_some_iff] at h
    obtain ⟨ro, h1, h2⟩ := h
    exact ⟨_, List.getElem?_eq_getElem (ok.perms ro (List.mem_of_getElem? h1) _ (GoMap.get_some_mem h2))⟩
  · intro t ht _ _ _ h; rw [(hc t ht).1] at h; cases h
  · intro t ht _ _ _ _ h; rw [(hc t ht).1] at h; cases h
  · intro t ht _ h; rw [(hc t ht).1] at h; cases h
  · intro t ht _ h; rw [(hc t ht).2] at h; cases h

/-- The slot is set at most once, and to a group that exists. -/
theorem inv_slot {h0 : RHeap} {r : Nat} {g : Str} {c c' : Conf} {i : Nat}
    (v : Inv h0 r g c) (e : c.step i = some c') :
    (∀ ga, slot c'.heap r g = some ga → ∃ G, c'.heap.groups[ga]? = some G) ∧
    (slot c'.heap r g = slot c.heap r g ∨ (slot c.heap r g = none ∧
      ∃ t call s, c.ts[i]? = some t ∧ t.cur = some (call, s) ∧ call.touches h0 r g)) := by
  have gr := step_grow e
  have hlive : ∀ ga : Nat, (∃ G, c.heap.groups[ga]? = some G) → ∃ G, c'.heap.groups[ga]? = some G := by
    rintro ga ⟨G, hG⟩
    obtain ⟨G', h1, _⟩ := gr ga G hG
    exact ⟨G', h1⟩
  obtain ⟨t, t', ht, _, _, _, hk⟩ := step_cases e
  have key : ∀ call s n, t.cur = some (call, s) → Acc c.heap call s c'.heap n →
      (∀ ga, slot c'.heap r g = some ga → ∃ G, c'.heap.groups[ga]? = some G) ∧
      (slot c'.heap r g = slot c.heap r g ∨ (slot c.heap r g = none ∧
      ∃ t call s, c.ts[i]? = some t ∧ t.cur = some (call, s) ∧ call.touches h0 r g)) := by
    intro call s n hc a
    rcases a.slot r g with h | ⟨as, ga, rfl, rfl, h⟩ | ⟨ga, G, rfl, rfl, hG, hid, h⟩
    · exact ⟨fun ga hga => hlive ga (v.live ga (by rw [← h]; exact hga)), Or.inl h⟩
    · obtain ⟨hs, G, hG, _⟩ := v.keep t (List.mem_of_getElem? ht) _ _ _ hc
      refine ⟨fun gb hgb => ?_, ?_⟩
      · rw [h] at hgb; cases hgb
        exact hlive ga ⟨G, hG⟩
      · rcases hs with h1 | h1
        · exact Or.inr ⟨h1, t, _, _, ht, hc, rfl, rfl⟩
        · exact Or.inl (h.trans h1.symm)
    · obtain ⟨G', hG', hn⟩ := v.gset t (List.mem_of_getElem? ht) _ hc
      rw [hG] at hG'; cases hG'
      refine ⟨fun gb hgb => ?_, Or.inr ⟨hn hid, t, _, _, ht, hc, rfl, ?_⟩⟩
      · rw [h] at hgb; cases hgb
        exact hlive ga ⟨G, hG⟩
      · intro G0 hG0
        obtain ⟨G1, h1, h2, _⟩ := v.grow ga G0 hG0
        rw [hG] at h1; cases h1
        exact h2.symm.trans hid
  rcases hk with ⟨_, _, _, _, hh, _⟩ | ⟨call, s, s', hc, a, _⟩ | ⟨call, s, er, hc, a, _⟩
  · exact ⟨by rw [hh]; exact v.live, Or.inl (by rw [hh])⟩
  · exact key _ _ _ hc a
  · exact key _ _ _ hc a

theorem inv_step {h0 : RHeap} {calls : List (List Call)} {r : Nat} {g : Str} (calm : Calm h0 calls r g)
    {c c' : Conf} {i : Nat} (v : Inv h0 r g c) (p : Prog calls c) (e : c.step i = some c') : Inv h0 r g c' := by
  have gr := step_grow e
  obtain ⟨hlive, hs⟩ := inv_slot v e
  -- a goroutine other than `i` inside a touching call sees the slot unchanged
  have hoth : ∀ (j : Nat) (t : Thread) call s, j ≠ i → c.ts[j]? = some t → t.cur = some (call, s) →
      call.touches h0 r g → slot c'.heap r g = slot c.heap r g := by
    intro j t call s hji hj hc ht
    rcases hs with h | ⟨hn, u, call', s', hu, hc', ht'⟩
    · exact h
    · rcases calm with ⟨ro, hro, hsome⟩ | calm
      · obtain ⟨ga, hga⟩ := Option.isSome_iff_exists.1 hsome
        rw [v.first ga (by rw [slot_of hro, hga])] at hn
        cases hn
      · exact absurd (calm j i _ _ (p j t hj) (p i u hu) call (List.mem_append_left _ (by simp [Thread.begun, hc]))
          call' (List.mem_append_left _ (by simp [Thread.begun, hc'])) ht ht') hji
  have hmono : ∀ ga, slot c.heap r g = some ga → slot c'.heap r g = some ga := by
    intro ga h
    rcases hs with h1 | ⟨hn, _⟩
    · rw [h1]; exact h
    · rw [hn] at h; cases h
  have hup : ∀ (ga : Nat) (as0 as : List Attr),
      (∃ G : GroupObj, c.heap.groups[ga]? = some G ∧ ∀ b ∈ as0, b ∈ as ∨ (G.perms.get b.toStr).isSome) →
      ∃ G : GroupObj, c'.heap.groups[ga]? = some G ∧ ∀ b ∈ as0, b ∈ as ∨ (G.perms.get b.toStr).isSome := by
    rintro ga as0 as ⟨G, hG, hb⟩
    obtain ⟨G', h1, _, h3⟩ := gr ga G hG
    exact ⟨G', h1, fun b hb0 => (hb b hb0).imp_right (h3 _)⟩
  obtain ⟨t, t', ht, ht', hts, ho, hk⟩ := step_cases e
  have hm : t ∈ c.ts := List.mem_of_getElem? ht
  refine ⟨fun ga h => hmono ga (v.first ga h), v.grow.trans gr, hlive, ?_, ?_, ?_, ?_⟩
  · intro u hu as0 ga as hc
    obtain ⟨j, hj⟩ := List.getElem?_of_mem hu
    by_cases hji : j = i
    · subst hji
      rw [ht'] at hj; cases hj
      rcases hk with ⟨call, rest, h1, _, hh, rfl⟩ | ⟨call, s, s', h1, a, rfl⟩ | ⟨call, s, er, h1, a, rfl⟩
      · simp only [Option.some.injEq, Prod.mk.injEq] at hc
        obtain ⟨rfl, hc⟩ := hc
        cases hc
      · simp only [Option.some.injEq, Prod.mk.injEq] at hc
        obtain ⟨rfl, rfl⟩ := hc
        rcases a.to_keep with ⟨rfl, hh, hsl, rfl⟩ | ⟨rfl, hh, hsl, rfl, rfl⟩ | ⟨b, G, rfl, hh, hG, hx⟩ | ⟨b, G, rfl, hG, hh⟩
        · obtain ⟨G, hG⟩ := v.live ga hsl
          exact ⟨Or.inr (hmono ga hsl), hup _ _ _ ⟨G, hG, fun b hb => Or.inl hb⟩⟩
        · refine ⟨Or.inl (by rw [hh]; exact hsl), { id := g }, by rw [hh]; simp, fun b hb => Or.inl hb⟩
        · obtain ⟨h2, G', hG', h3⟩ := v.keep t hm _ _ _ h1
          rw [hG] at hG'; cases hG'
          refine ⟨by rw [hh]; exact h2, G, by rw [hh]; exact hG, fun x hx0 => ?_⟩
          rcases h3 x hx0 with h4 | h4
          · rcases List.mem_cons.1 h4 with rfl | h4
            · exact Or.inr hx
            · exact Or.inl h4
          · exact Or.inr h4
        · obtain ⟨h2, G', hG', h3⟩ := v.attr t hm _ _ _ _ h1
          rw [hG] at hG'; cases hG'
          refine ⟨by rw [hh]; exact h2, { G with perms := G.perms.set b.toStr b },
            by rw [hh]; exact List.getElem?_set_self (List.getElem?_eq_some_iff.1 hG).1, fun x hx0 => ?_⟩
          simp only [GoMap.get_set]
          split
          · exact Or.inr rfl
          · rename_i hne
            rcases h3 x hx0 with h4 | h4
            · rcases List.mem_cons.1 h4 with rfl | h4
              · exact absurd rfl hne
              · exact Or.inl h4
            · exact Or.inr h4
      · cases hc
    · rw [ho j hji] at hj
      have := v.keep u (List.mem_of_getElem? hj) as0 ga as hc
      rw [hoth j u _ _ hji hj hc ⟨rfl, rfl⟩]
      exact ⟨this.1, hup _ _ _ this.2⟩
  · intro u hu as0 ga a0 as hc
    obtain ⟨j, hj⟩ := List.getElem?_of_mem hu
    by_cases hji : j = i
    · subst hji
      rw [ht'] at hj; cases hj
      rcases hk with ⟨call, rest, h1, _, hh, rfl⟩ | ⟨call, s, s', h1, a, rfl⟩ | ⟨call, s, er, h1, a, rfl⟩
      · simp only [Option.some.injEq, Prod.mk.injEq] at hc
        obtain ⟨rfl, hc⟩ := hc
        cases hc
      · simp only [Option.some.injEq, Prod.mk.injEq] at hc
        obtain ⟨rfl, rfl⟩ := hc
        obtain ⟨rfl, hh⟩ := a.to_attr
        rw [hh]
        exact v.keep t hm _ _ _ h1
      · cases hc
    · rw [ho j hji] at hj
      have := v.attr u (List.mem_of_getElem? hj) as0 ga a0 as hc
      rw [hoth j u _ _ hji hj hc ⟨rfl, rfl⟩]
      exact ⟨this.1, hup _ _ _ this.2⟩
  · intro u hu ga hc
    obtain ⟨j, hj⟩ := List.getElem?_of_mem hu
    by_cases hji : j = i
    · subst hji
      rw [ht'] at hj; cases hj
      rcases hk with ⟨call, rest, h1, _, hh, rfl⟩ | ⟨call, s, s', h1, a, rfl⟩ | ⟨call, s, er, h1, a, rfl⟩
      · simp only [Option.some.injEq, Prod.mk.injEq] at hc
        obtain ⟨rfl, hc⟩ := hc
        cases hc
      · simp only [Option.some.injEq, Prod.mk.injEq] at hc
        obtain ⟨rfl, rfl⟩ := hc
        obtain ⟨rfl, hh, ro, G, hr, hG, hx⟩ := a.to_gset
        rw [hh]
        exact ⟨G, hG, fun hid => by rw [slot_of hr, ← hid]; exact hx⟩
      · cases hc
    · rw [ho j hji] at hj
      obtain ⟨G, hG, h1⟩ := v.gset u (List.mem_of_getElem? hj) ga hc
      obtain ⟨G', hG', h2, _⟩ := gr ga G hG
      refine ⟨G', hG', fun hid => ?_⟩
      rw [hoth j u _ _ hji hj hc ⟨rfl, ?_⟩]
      · exact h1 (h2.symm.trans hid)
      · intro G0 hG0
        obtain ⟨G1, h3, h4, _⟩ := v.grow ga G0 hG0
        rw [hG] at h3; cases h3
        exact h4.symm.trans (h2.symm.trans hid)
  · intro u hu as hx
    have hold : (∃ ga G, slot c.heap r g = some ga ∧ c.heap.groups[ga]? = some G ∧
        ∀ b ∈ as, (G.perms.get b.toStr).isSome) → ∃ ga G, slot c'.heap r g = some ga ∧
        c'.heap.groups[ga]? = some G ∧ ∀ b ∈ as, (G.perms.get b.toStr).isSome := by
      rintro ⟨ga, G, h1, h2, h3⟩
      obtain ⟨G', h4, _, h5⟩ := gr ga G h2
      exact ⟨ga, G', hmono ga h1, h4, fun b hb => h5 _ (h3 b hb)⟩
    rcases mem_ts hts hu with rfl | hu
    · rcases hk with ⟨call, rest, h1, _, hh, rfl⟩ | ⟨call, s, s', h1, a, rfl⟩ | ⟨call, s, er, h1, a, rfl⟩
      · exact hold (v.out t hm as hx)
      · exact hold (v.out t hm as hx)
      · rcases List.mem_append.1 hx with hx | hx
        · exact hold (v.out t hm as hx)
        · simp only [List.mem_singleton, Prod.mk.injEq] at hx
          obtain ⟨rfl, rfl⟩ := hx
          obtain ⟨ga, ro, rfl, hr, hh⟩ := a.granted
          obtain ⟨_, G, hG, h3⟩ := v.keep t hm _ _ _ h1
          refine ⟨ga, G, ?_, by rw [hh]; exact hG, fun b hb => (h3 b hb).resolve_left (by simp)⟩
          rw [hh, slot_set hr, if_pos rfl, GoMap.get_set, if_pos rfl]
    · exact hold (v.out u hu as hx)

theorem inv_run {h0 : RHeap} (ok : Spec.RHeap.OK h0) {calls : List (List Call)} {r : Nat} {g : Str}
    (calm : Calm h0 calls r g) {is : List Nat} {c : Conf} (e : (Conf.start h0 calls).run is = some c) :
    Inv h0 r g c ∧ Prog calls c :=
  run_inv (P := fun c => Inv h0 r g c ∧ Prog calls c)
    (fun _ _ _ h e => ⟨inv_step calm h.1 h.2 e, prog_step h.2 e⟩) is ⟨inv_start ok, prog_start h0 calls⟩ e

/-- What a role has at the start it keeps, whatever goroutines do. -/
theorem C91_kept {h0 : RHeap} (ok : Spec.RHeap.OK h0) {calls : List (List Call)} {is : List Nat} {c : Conf}
    (e : (Conf.start h0 calls).run is = some c) {r : Nat} {g x : Str} (h : Holds h0 r g x) :
    Holds c.heap r g x := by
  obtain ⟨ro, ga, G, h1, h2, h3, h4⟩ := h
  have v := (inv_run ok (calls := calls) (Or.inl ⟨ro, h1, by rw [h2]; rfl⟩) e).1
  obtain ⟨G', h5, _, h6⟩ := v.grow ga G h3
  exact holds_iff.2 ⟨ga, G', v.first ga (by rw [slot_of h1, h2]), h5, h6 x h4⟩

/-- The full claim: what `AddPermission` granted the role has, as soon as the call has returned. -/
def C91_full : Prop :=
  ∀ (h0 : RHeap), Spec.RHeap.OK h0 → ∀ (calls : List (List Call)) (is : List Nat) (c : Conf),
    (Conf.start h0 calls).run is = some c → ∀ t ∈ c.ts, ∀ r g as, (Call.grant r g as, none) ∈ t.out →
      ∀ a ∈ as, Holds c.heap r g a.toStr

/-- When the group exists from the start, or only one goroutine changes it, a role has what
`AddPermission` granted as soon as the call has returned. -/
theorem C91_granted_partial {h0 : RHeap} (ok : Spec.RHeap.OK h0) {calls : List (List Call)} {is : List Nat}
    {c : Conf} (e : (Conf.start h0 calls).run is = some c) {r : Nat} {g : Str} (calm : Calm h0 calls r g)
    {t : Thread} (ht : t ∈ c.ts) {as : List Attr} (hx : (Call.grant r g as, none) ∈ t.out) :
    ∀ a ∈ as, Holds c.heap r g a.toStr := by
  obtain ⟨ga, G, h1, h2, h3⟩ := (inv_run ok calm e).1.out t ht as hx
  exact fun a ha => holds_iff.2 ⟨ga, G, h1, h2, h3 a ha⟩

/-- In the same cases the role keeps for ever whatever it has at some moment. -/
theorem C91_stays_partial {h0 : RHeap} (ok : Spec.RHeap.OK h0) {calls : List (List Call)} {is js : List Nat}
    {c c' : Conf} (e : (Conf.start h0 calls).run is = some c) (e' : c.run js = some c') {r : Nat} {g x : Str}
    (calm : Calm h0 calls r g) (h : Holds c.heap r g x) : Holds c'.heap r g x := by
  refine (run_inv (P := fun c => (Inv h0 r g c ∧ Prog calls c) ∧ Holds c.heap r g x) ?_ js
    ⟨inv_run ok calm e, h⟩ e').2
  rintro c c' i ⟨⟨v, p⟩, h⟩ e
  refine ⟨⟨inv_step calm v p e, prog_step p e⟩, ?_⟩
  obtain ⟨ga, G, h1, h2, h3⟩ := holds_iff.1 h
  obtain ⟨G', h4, _, h5⟩ := step_grow e ga G h2
  refine holds_iff.2 ⟨ga, G', ?_, h4, h5 x h3⟩
  rcases (inv_slot v e).2 with h6 | ⟨h6, _⟩
  · rw [h6]; exact h1
  · rw [h6] at h1; cases h1

/-- A role without groups. -/
def exHeap : RHeap where
  roles := [{ id := str "r" }]

theorem exHeap_ok : Spec.RHeap.OK exHeap := by
  constructor <;> simp [exHeap, GoMap.WF]

/-- Two goroutines find no group "g" and both create one: the later `Set` replaces the group that
carries the first grant. -/
theorem C91_counterexample :
    (Conf.start exHeap [[.grant 0 (str "g") [⟨str "/a", str "GET"⟩]], [.grant 0 (str "g") [⟨str "/b", str "GET"⟩]]]).run
      [0, 0, 0, 1, 1, 1, 0, 0, 0, 1, 1, 1] =
      some { heap := { roles := [{ id := str "r", perms := [(str "g", 1)] }],
                       groups := [{ id := str "g", perms := [(str "/a GET", ⟨str "/a", str "GET"⟩)] },
                                  { id := str "g", perms := [(str "/b GET", ⟨str "/b", str "GET"⟩)] }] },
             ts := [{ todo := [], out := [(.grant 0 (str "g") [⟨str "/a", str "GET"⟩], none)] },
                    { todo := [], out := [(.grant 0 (str "g") [⟨str "/b", str "GET"⟩], none)] }] } := by
  decide +kernel

theorem C91_full_false : ¬ C91_full := by
  intro h
  have := h exHeap exHeap_ok _ _ _ C91_counterexample
    { todo := [], out := [(.grant 0 (str "g") [⟨str "/a", str "GET"⟩], none)] } (by simp) 0 (str "g")
    [⟨str "/a", str "GET"⟩] (by simp) ⟨str "/a", str "GET"⟩ (by simp)
  obtain ⟨ro, ga, G, h1, h2, h3, h4⟩ := this
  cases h1
  rw [show GoMap.get [(str "g", 1)] (str "g") = some 1 by decide +kernel] at h2
  cases h2
  cases h3
  revert h4
  decide +kernel

/-- The calls name only groups that exist at the start: `AddPermission` keeps the groups it creates to
itself. -/
def Valid (h0 : RHeap) (calls : List (List Call)) : Prop :=
  ∀ l ∈ calls, (∀ r ga, Call.addGroup r ga ∈ l → ga < h0.groups.length) ∧
    ∀ ga as, Call.fill ga as ∈ l → ga < h0.groups.length

/-- Role `r` may have the group object `ga` under `g`: it has at the start, or was given it. -/
def Reaches (h0 : RHeap) (c : Conf) (r : Nat) (g : Str) (ga : Nat) : Prop :=
  (∃ ro, h0.roles[r]? = some ro ∧ ro.perms.get g = some ga) ∨
  (c.Begun (.addGroup r ga) ∧ ∃ G, h0.groups[ga]? = some G ∧ G.id = g)

/-- Goroutines have begun to put attribute `a` into the group object `ga`. -/
def Offered (h0 : RHeap) (c : Conf) (ga : Nat) (a : Attr) : Prop :=
  (∃ as, c.Begun (.fill ga as) ∧ a ∈ as) ∨
  ∃ r g as, c.Begun (.grant r g as) ∧ a ∈ as ∧ Reaches h0 c r g ga

/-- A group created by `AddPermission` belongs to one role and name. -/
def Maps (h0 : RHeap) (c : Conf) (own : Nat → Nat × Str) (r : Nat) (g : Str) (ga : Nat) : Prop :=
  (ga < h0.groups.length ∧ Reaches h0 c r g ga) ∨
  (h0.groups.length ≤ ga ∧ ga < c.heap.groups.length ∧ own ga = (r, g))

structure Owned (h0 : RHeap) (c : Conf) (own : Nat → Nat × Str) : Prop where
  grow : Grow h0 c.heap
  len : h0.groups.length ≤ c.heap.groups.length
  slots : ∀ r g ga, slot c.heap r g = some ga → Maps h0 c own r g ga
  attrs : ∀ (ga : Nat) G x a, c.heap.groups[ga]? = some G → G.perms.get x = some a →
    (ga < h0.groups.length ∧ ((∃ G0, h0.groups[ga]? = some G0 ∧ G0.perms.get x = some a) ∨
      (x = a.toStr ∧ Offered h0 c ga a))) ∨
    (h0.groups.length ≤ ga ∧ x = a.toStr ∧ ∃ as, c.Begun (.grant (own ga).1 (own ga).2 as) ∧ a ∈ as)
  keep : ∀ t ∈ c.ts, ∀ r g as0 ga as, t.cur = some (.grant r g as0, .keep ga as) →
    Maps h0 c own r g ga ∧ ∀ a ∈ as, a ∈ as0
  attr : ∀ t ∈ c.ts, ∀ r g as0 ga b as, t.cur = some (.grant r g as0, .attr ga b as) →
    Maps h0 c own r g ga ∧ ∀ a ∈ b :: as, a ∈ as0
  fill : ∀ t ∈ c.ts, ∀ ga as0 as, t.cur = some (.fill ga as0, .fill as) → ∀ a ∈ as, a ∈ as0

theorem Reaches.mono {h0 : RHeap} {c c' : Conf} {i : Nat} (e : c.step i = some c') {r : Nat} {g : Str} {ga : Nat}
    (h : Reaches h0 c r g ga) : Reaches h0 c' r g ga :=
  h.imp_right fun h => ⟨begun_mono e h.1, h.2⟩

theorem Offered.mono {h0 : RHeap} {c c' : Conf} {i : Nat} (e : c.step i = some c') {ga : Nat} {a : Attr}
    (h : Offered h0 c ga a) : Offered h0 c' ga a := by
  rcases h with ⟨as, h1, h2⟩ | ⟨r, g, as, h1, h2, h3⟩
  · exact Or.inl ⟨as, begun_mono e h1, h2⟩
  · exact Or.inr ⟨r, g, as, begun_mono e h1, h2, h3.mono e⟩

theorem step_len {c c' : Conf} {i : Nat} (e : c.step i = some c') : c.heap.groups.length ≤ c'.heap.groups.length := by
  obtain ⟨_, _, _, _, _, _, hk⟩ := step_cases e
  rcases hk with ⟨_, _, _, _, hh, _⟩ | ⟨_, _, _, _, a, _⟩ | ⟨_, _, _, _, a, _⟩
  · exact Nat.le_of_eq (by rw [hh])
  · exact a.len
  · exact a.len

theorem owned_step {h0 : RHeap} {calls : List (List Call)} (vd : Valid h0 calls) {c c' : Conf} {i : Nat}
    {own : Nat → Nat × Str} (v : Owned h0 c own) (p : Prog calls c) (e : c.step i = some c') :
    ∃ own', Owned h0 c' own' := by
  have gr := step_grow e
  have hl := step_len e
  obtain ⟨t, t', ht, ht', hts, ho, hk⟩ := step_cases e
  have hm : t ∈ c.ts := List.mem_of_getElem? ht
  have hcall : ∀ call s, t.cur = some (call, s) → ∃ l ∈ calls, call ∈ l := fun call s hc =>
    ⟨_, List.mem_of_getElem? (p i t ht), List.mem_append_left _ (by simp [Thread.begun, hc])⟩
  -- a new group belongs to the role and name of the call that creates it
  obtain ⟨own', hown, hnew⟩ : ∃ own' : Nat → Nat × Str, (∀ ga, ga < c.heap.groups.length → own' ga = own ga) ∧
      ∀ r g as s, t.cur = some (.grant r g as, s) → own' c.heap.groups.length = (r, g) := by
    cases hc : t.cur with
    | none => exact ⟨own, fun _ _ => rfl, fun r g as s h => by cases h⟩
    | some q =>
      obtain ⟨call, s⟩ := q
      cases call with
      | grant r g as =>
        refine ⟨fun ga => if ga < c.heap.groups.length then own ga else (r, g), fun ga h => if_pos h, ?_⟩
        intro r' g' as' s' h
        cases h
        exact if_neg (Nat.lt_irrefl _)
      | _ => exact ⟨own, fun _ _ => rfl, fun r g as s h => by cases h⟩
  have hmaps : ∀ r g ga, Maps h0 c own r g ga → Maps h0 c' own' r g ga := by
    rintro r g ga (⟨h1, h2⟩ | ⟨h1, h2, h3⟩)
    · exact Or.inl ⟨h1, h2.mono e⟩
    · exact Or.inr ⟨h1, Nat.lt_of_lt_of_le h2 hl, (hown ga h2).trans h3⟩
  have hslots : ∀ call s n, t.cur = some (call, s) → Acc c.heap call s c'.heap n →
      ∀ r g ga, slot c'.heap r g = some ga → Maps h0 c' own' r g ga := by
    intro call s n hc a r g ga h
    rcases a.slot r g with h1 | ⟨as, gb, rfl, rfl, h1⟩ | ⟨gb, G, rfl, rfl, hG, hid, h1⟩
    · exact hmaps _ _ _ (v.slots r g ga (by rw [← h1]; exact h))
    · rw [h] at h1; cases h1
      exact hmaps _ _ _ (v.keep t hm _ _ _ _ _ hc).1
    · rw [h] at h1; cases h1
      obtain ⟨l, hl1, hl2⟩ := hcall _ _ hc
      have hlt := (vd l hl1).1 r ga hl2
      refine Or.inl ⟨hlt, Or.inr ⟨begun_mono e (begun_cur hm hc), _, List.getElem?_eq_getElem hlt, ?_⟩⟩
      obtain ⟨G1, h2, h3, _⟩ := v.grow ga _ (List.getElem?_eq_getElem hlt)
      rw [hG] at h2; cases h2
      exact h3.symm.trans hid
  have hattrs0 : ∀ (ga : Nat) (G : GroupObj) x a, c.heap.groups[ga]? = some G → G.perms.get x = some a →
      (ga < h0.groups.length ∧ ((∃ G0, h0.groups[ga]? = some G0 ∧ G0.perms.get x = some a) ∨
        (x = a.toStr ∧ Offered h0 c' ga a))) ∨
      (h0.groups.length ≤ ga ∧ x = a.toStr ∧ ∃ as, c'.Begun (.grant (own' ga).1 (own' ga).2 as) ∧ a ∈ as) := by
    intro ga G x a hG hx
    rcases v.attrs ga G x a hG hx with ⟨h1, h2⟩ | ⟨h1, h2, as, h3, h4⟩
    · exact Or.inl ⟨h1, h2.imp_right fun h => ⟨h.1, h.2.mono e⟩⟩
    · refine Or.inr ⟨h1, h2, as, ?_, h4⟩
      rw [hown ga (List.getElem?_eq_some_iff.1 hG).1]
      exact begun_mono e h3
  have hattrs : ∀ call s n, t.cur = some (call, s) → Acc c.heap call s c'.heap n →
      ∀ (ga : Nat) (G : GroupObj) x a, c'.heap.groups[ga]? = some G → G.perms.get x = some a →
      (ga < h0.groups.length ∧ ((∃ G0, h0.groups[ga]? = some G0 ∧ G0.perms.get x = some a) ∨
        (x = a.toStr ∧ Offered h0 c' ga a))) ∨
      (h0.groups.length ≤ ga ∧ x = a.toStr ∧ ∃ as, c'.Begun (.grant (own' ga).1 (own' ga).2 as) ∧ a ∈ as) := by
    intro call s n hc a ga G x b hG hx
    rcases a.attrs hG hx with ⟨G1, h1, h2⟩ | ⟨h1, ⟨r, g, as0, as, rfl, rfl⟩ | ⟨as0, as, rfl, rfl⟩⟩
    · exact hattrs0 ga G1 x b h1 h2
    · obtain ⟨h2, h3⟩ := v.attr t hm _ _ _ _ _ _ hc
      have hb := begun_mono e (begun_cur hm hc)
      rcases h2 with ⟨h4, h5⟩ | ⟨h4, h5, h6⟩
      · exact Or.inl ⟨h4, Or.inr ⟨h1, Or.inr ⟨r, g, as0, hb, h3 b (by simp), h5.mono e⟩⟩⟩
      · refine Or.inr ⟨h4, h1, as0, ?_, h3 b (by simp)⟩
        rw [hown ga h5, h6]
        exact hb
    · obtain ⟨l, hl1, hl2⟩ := hcall _ _ hc
      exact Or.inl ⟨(vd l hl1).2 ga as0 hl2, Or.inr ⟨h1, Or.inl ⟨as0, begun_mono e (begun_cur hm hc),
        v.fill t hm _ _ _ hc b (by simp)⟩⟩⟩
  refine ⟨own', v.grow.trans gr, Nat.le_trans v.len hl, ?_, ?_, ?_, ?_, ?_⟩
  · rcases hk with ⟨_, _, _, _, hh, _⟩ | ⟨call, s, _, h1, a, _⟩ | ⟨call, s, _, h1, a, _⟩
    · intro r g ga h
      exact hmaps r g ga (v.slots r g ga (by rw [← hh]; exact h))
    · exact hslots _ _ _ h1 a
    · exact hslots _ _ _ h1 a
  · rcases hk with ⟨_, _, _, _, hh, _⟩ | ⟨call, s, _, h1, a, _⟩ | ⟨call, s, _, h1, a, _⟩
    · intro ga G x a hG hx
      exact hattrs0 ga G x a (by rw [← hh]; exact hG) hx
    · exact hattrs _ _ _ h1 a
    · exact hattrs _ _ _ h1 a
  · intro u hu r g as0 ga as hc
    rcases mem_ts hts hu with rfl | hu
    · rcases hk with ⟨call, rest, h1, _, hh, rfl⟩ | ⟨call, s, s', h1, a, rfl⟩ | ⟨call, s, er, h1, a, rfl⟩
      · simp only [Option.some.injEq, Prod.mk.injEq] at hc
        obtain ⟨rfl, hc⟩ := hc
        cases hc
      · simp only [Option.some.injEq, Prod.mk.injEq] at hc
        obtain ⟨rfl, rfl⟩ := hc
        rcases a.to_keep with ⟨rfl, hh, hsl, rfl⟩ | ⟨rfl, hh, hsl, rfl, rfl⟩ | ⟨b, G, rfl, hh, hG, hx⟩ | ⟨b, G, rfl, hG, hh⟩
        · exact ⟨hmaps _ _ _ (v.slots r g ga hsl), fun a h => h⟩
        · exact ⟨Or.inr ⟨v.len, by rw [hh]; simp, hnew r g _ _ h1⟩, fun a h => h⟩
        · obtain ⟨h2, h3⟩ := v.keep t hm _ _ _ _ _ h1
          exact ⟨hmaps _ _ _ h2, fun a h => h3 a (List.mem_cons_of_mem _ h)⟩
        · obtain ⟨h2, h3⟩ := v.attr t hm _ _ _ _ _ _ h1
          exact ⟨hmaps _ _ _ h2, fun a h => h3 a (List.mem_cons_of_mem _ h)⟩
      · cases hc
    · obtain ⟨h2, h3⟩ := v.keep u hu r g as0 ga as hc
      exact ⟨hmaps _ _ _ h2, h3⟩
  · intro u hu r g as0 ga b as hc
    rcases mem_ts hts hu with rfl | hu
    · rcases hk with ⟨call, rest, h1, _, hh, rfl⟩ | ⟨call, s, s', h1, a, rfl⟩ | ⟨call, s, er, h1, a, rfl⟩
      · simp only [Option.some.injEq, Prod.mk.injEq] at hc
        obtain ⟨rfl, hc⟩ := hc
        cases hc
      · simp only [Option.some.injEq, Prod.mk.injEq] at hc
        obtain ⟨rfl, rfl⟩ := hc
        obtain ⟨rfl, hh⟩ := a.to_attr
        obtain ⟨h2, h3⟩ := v.keep t hm _ _ _ _ _ h1
        exact ⟨hmaps _ _ _ h2, h3⟩
      · cases hc
    · obtain ⟨h2, h3⟩ := v.attr u hu r g as0 ga b as hc
      exact ⟨hmaps _ _ _ h2, h3⟩
  · intro u hu ga as0 as hc
    rcases mem_ts hts hu with rfl | hu
    · rcases hk with ⟨call, rest, h1, _, hh, rfl⟩ | ⟨call, s, s', h1, a, rfl⟩ | ⟨call, s, er, h1, a, rfl⟩
      · simp only [Option.some.injEq, Prod.mk.injEq] at hc
        obtain ⟨rfl, hc⟩ := hc
        cases hc
        exact fun a h => h
      · simp only [Option.some.injEq, Prod.mk.injEq] at hc
        obtain ⟨rfl, rfl⟩ := hc
        obtain ⟨b, rfl⟩ := a.to_fill
        exact fun a h => v.fill t hm _ _ _ h1 a (List.mem_cons_of_mem _ h)
      · cases hc
    · exact v.fill u hu ga as0 as hc

theorem owned_start {h0 : RHeap} (ok : Spec.RHeap.OK h0) (calls : List (List Call)) :
    Owned h0 (.start h0 calls) (fun _ => (0, [])) := by
  have hc : ∀ t ∈ (Conf.start h0 calls).ts, t.cur = none := by
    intro t ht
    simp only [Conf.start, List.mem_map] at ht
    obtain ⟨l, _, rfl⟩ := ht
    rfl
  refine ⟨Grow.refl _, Nat.le_refl _, ?_, ?_, ?_, ?_, ?_⟩
  · intro r g ga h
    simp only [slot, Option.bind_eq_some_iff] at h
    obtain ⟨ro, h1, h2⟩ := h
    exact Or.inl ⟨ok.perms ro (List.mem_of_getElem? h1) _ (GoMap.get_some_mem h2), Or.inl ⟨ro, h1, h2⟩⟩
  · intro ga G x a hG hx
    exact Or.inl ⟨(List.getElem?_eq_some_iff.1 hG).1, Or.inl ⟨G, hG, hx⟩⟩
  · intro t ht _ _ _ _ _ h; rw [hc t ht] at h; cases h
  · intro t ht _ _ _ _ _ _ h; rw [hc t ht] at h; cases h
  · intro t ht _ _ _ h; rw [hc t ht] at h; cases h

/-- Whatever goroutines do, an attribute that a role has in a group `g` was granted to this role under
`g`, or stood at the start in a group object the role has or was given, or was added to such an object
by `AddAttributes` or by a grant to a role sharing it. -/
theorem C91_only {h0 : RHeap} (ok : Spec.RHeap.OK h0) {calls : List (List Call)} (vd : Valid h0 calls)
    {is : List Nat} {c : Conf} (e : (Conf.start h0 calls).run is = some c) {r ga : Nat} {g x : Str} {ro : RoleObj}
    {G : GroupObj} {a : Attr} (hr : c.heap.roles[r]? = some ro) (hg : ro.perms.get g = some ga)
    (hG : c.heap.groups[ga]? = some G) (hx : G.perms.get x = some a) :
    (x = a.toStr ∧ ∃ as, c.Begun (.grant r g as) ∧ a ∈ as) ∨
    (Reaches h0 c r g ga ∧ ((∃ G0, h0.groups[ga]? = some G0 ∧ G0.perms.get x = some a) ∨
      (x = a.toStr ∧ Offered h0 c ga a))) := by
  obtain ⟨⟨own, v⟩, _⟩ := run_inv (P := fun c => (∃ own, Owned h0 c own) ∧ Prog calls c)
    (fun _ _ _ h e => ⟨h.1.elim fun _ v => owned_step vd v h.2 e, prog_step h.2 e⟩) is
    ⟨⟨_, owned_start ok calls⟩, prog_start h0 calls⟩ e
  rcases v.slots r g ga (by rw [slot_of hr, hg]) with ⟨h1, h2⟩ | ⟨h1, h2, h3⟩
  · rcases v.attrs ga G x a hG hx with ⟨_, h4⟩ | ⟨h4, _⟩
    · exact Or.inr ⟨h2, h4⟩
    · exact absurd h1 (Nat.not_lt.2 h4)
  · rcases v.attrs ga G x a hG hx with ⟨h4, _⟩ | ⟨_, h4, as, h5, h6⟩
    · exact absurd h4 (Nat.not_lt.2 h1)
    · rw [h3] at h5
      exact Or.inl ⟨h4, as, h5, h6⟩

/-- What a call does when it runs by itself (`Model/Role.lean`). -/
def Call.seq (h : RHeap) : Call → Out (Option Err × RHeap)
  | .grant r g as => h.addPermission r g as
  | .addGroup r ga => h.addPermissionResourceGroup r ga
  | .descend r ds => h.addDescendant r ds
  | .setLock r b => (h.setLock r b).map fun h' => (none, h')
  | .fill ga as => (h.groupAddAttributes ga as).map fun h' => (none, h')

/-- The accesses of a call from a position to its return. -/
inductive Steps (call : Call) : RHeap → Spot → RHeap → Option Err → Prop
  | last {h h' : RHeap} {s : Spot} {e : Option Err} : step1 h call s = some (h', .ret e) → Steps call h s h' e
  | more {h h1 h' : RHeap} {s s1 : Spot} {e : Option Err} : step1 h call s = some (h1, .at s1) →
      Steps call h1 s1 h' e → Steps call h s h' e

theorem steps_run {call : Call} {h h' : RHeap} {s : Spot} {e : Option Err} (w : Steps call h s h' e)
    (ts : List Thread) (i : Nat) (t : Thread) (ht : ts[i]? = some t) (hc : t.cur = some (call, s)) :
    ∃ n, Conf.run { heap := h, ts := ts } (List.replicate n i) =
      some { heap := h', ts := ts.set i { t with cur := none, out := t.out ++ [(call, e)] } } := by
  induction w generalizing ts t with
  | last h1 => exact ⟨1, by simp [Conf.run, Conf.step, ht, hc, h1]⟩
  | @more h h1 h' s s1 e hs _ ih =>
    have hl := (List.getElem?_eq_some_iff.1 ht).1
    obtain ⟨n, hn⟩ := ih (ts.set i { t with cur := some (call, s1) }) { t with cur := some (call, s1) }
      (List.getElem?_set_self hl) rfl
    refine ⟨n + 1, ?_⟩
    rw [List.set_set] at hn
    simp [List.replicate_succ, Conf.run, Conf.step, ht, hc, hs, hn]

theorem set_set_group {h : RHeap} {ga : Nat} {G G' : GroupObj} :
    ({ h with groups := (h.groups.set ga G).set ga G' } : RHeap) = { h with groups := h.groups.set ga G' } := by
  rw [List.set_set]

theorem steps_keep {r : Nat} {g : Str} {as0 : List Attr} {ga : Nat} {ro : RoleObj} :
    ∀ (as : List Attr) (h : RHeap) (G : GroupObj), h.roles[r]? = some ro → h.groups[ga]? = some G →
      Steps (.grant r g as0) h (.keep ga as)
        { roles := h.roles.set r { ro with perms := ro.perms.set g ga }
          groups := h.groups.set ga { G with perms := RHeap.addAttrsKeep G.perms as } } none := by
  intro as
  induction as with
  | nil =>
    intro h G hr hG
    refine .last ?_
    have : h.groups.set ga G = h.groups := by
      obtain ⟨hl, rfl⟩ := List.getElem?_eq_some_iff.1 hG
      exact List.set_getElem_self hl
    simp [step1, hr, RHeap.addAttrsKeep, this]
  | cons a as ih =>
    intro h G hr hG
    cases hx : G.perms.get a.toStr with
    | some b =>
      refine .more (h1 := h) (s1 := .keep ga as) (by simp [step1, hG, hx]) ?_
      simpa [RHeap.addAttrsKeep, hx] using ih h G hr hG
    | none =>
      refine .more (h1 := h) (s1 := .attr ga a as) (by simp [step1, hG, hx]) ?_
      refine .more (h1 := { h with groups := h.groups.set ga { G with perms := G.perms.set a.toStr a } })
        (s1 := .keep ga as) (by simp [step1, hG]) ?_
      have := ih { h with groups := h.groups.set ga { G with perms := G.perms.set a.toStr a } } _ hr
        (List.getElem?_set_self (List.getElem?_eq_some_iff.1 hG).1)
      simpa [RHeap.addAttrsKeep, hx, List.set_set] using this

theorem steps_descend {r : Nat} {ds0 : List Nat} : ∀ (ds : List Nat) (h h' : RHeap),
    RHeap.addDescendant.loop r h ds = .ok h' → Steps (.descend r ds0) h (.dget ds) h' none := by
  intro ds
  induction ds with
  | nil =>
    intro h h' e
    cases e
    exact .last rfl
  | cons d ds ih =>
    intro h h' e
    simp only [RHeap.addDescendant.loop] at e
    split at e
    · rename_i dro ro hd hr
      split at e
      · rename_i hx
        exact .more (h1 := h) (s1 := .dget ds) (by simp [step1, hd, hr, hx]) (ih h h' e)
      · rename_i hx
        exact .more (h1 := h) (s1 := .dset d ds) (by simp [step1, hd, hr, hx])
          (.more (s1 := .dget ds) (by simp only [step1, hd, hr]) (ih _ h' e))
    · cases e

theorem steps_fill {ga : Nat} {as0 : List Attr} : ∀ (as : List Attr) (h : RHeap) (G : GroupObj),
    h.groups[ga]? = some G → Steps (.fill ga as0) h (.fill as)
      { h with groups := h.groups.set ga { G with perms := as.foldl (fun m a => m.set a.toStr a) G.perms } } none := by
  intro as
  induction as with
  | nil =>
    intro h G hG
    have : h.groups.set ga G = h.groups := by
      obtain ⟨hl, rfl⟩ := List.getElem?_eq_some_iff.1 hG
      exact List.set_getElem_self hl
    exact .last (by simp [step1, this])
  | cons a as ih =>
    intro h G hG
    refine .more (h1 := { h with groups := h.groups.set ga { G with perms := G.perms.set a.toStr a } })
        (s1 := .fill as) (by simp [step1, hG]) ?_
    have := ih { h with groups := h.groups.set ga { G with perms := G.perms.set a.toStr a } } _
        (List.getElem?_set_self (List.getElem?_eq_some_iff.1 hG).1)
    simpa [List.set_set] using this

theorem steps_call {h h' : RHeap} {call : Call} {e : Option Err} (hs : call.seq h = .ok (e, h')) :
    Steps call h call.first h' e := by
  cases call with
  | grant r g as =>
    simp only [Call.seq, RHeap.addPermission] at hs
    split at hs
    · cases hs
    · rename_i ro hr
      split at hs
      · rename_i hl
        cases hs
        exact .last (by simp [Call.first, step1, gate, hr, hl])
      · rename_i hl
        refine .more (h1 := h) (s1 := .group) (by simp [Call.first, step1, gate, hr, hl]) ?_
        split at hs
        · rename_i ga hg
          split at hs
          · cases hs
          · rename_i G hG
            cases hs
            exact .more (h1 := h) (s1 := .keep ga as) (by simp [step1, hr, hg]) (steps_keep as h G hr hG)
        · rename_i hg
          cases hs
          refine .more (h1 := { h with groups := h.groups ++ [{ id := g }] }) (s1 := .keep h.groups.length as)
            (by simp [step1, hr, hg]) ?_
          have := steps_keep (g := g) (as0 := as) as { h with groups := h.groups ++ [{ id := g }] } { id := g }
            (ga := h.groups.length) hr (by simp)
          simpa using this
  | addGroup r ga =>
    simp only [Call.seq, RHeap.addPermissionResourceGroup] at hs
    split at hs
    · rename_i ro G hr hG
      split at hs
      · rename_i hl
        cases hs
        exact .last (by simp [Call.first, step1, gate, hr, hl])
      · rename_i hl
        refine .more (h1 := h) (s1 := .gget) (by simp [Call.first, step1, gate, hr, hl]) ?_
        split at hs
        · rename_i hx
          cases hs
          exact .last (by simp [step1, hr, hG, hx])
        · rename_i hx
          cases hs
          exact .more (h1 := h) (s1 := .gset) (by simp [step1, hr, hG, hx]) (.last (by simp [step1, hr, hG]))
    · cases hs
  | descend r ds =>
    simp only [Call.seq, RHeap.addDescendant] at hs
    split at hs
    · cases hs
    · rename_i ro hr
      split at hs
      · rename_i hl
        cases hs
        exact .last (by simp [Call.first, step1, gate, hr, hl])
      · rename_i hl
        refine .more (h1 := h) (s1 := .dget ds) (by simp [Call.first, step1, gate, hr, hl]) ?_
        cases hx : RHeap.addDescendant.loop r h ds with
        | ok h1 =>
          rw [hx] at hs
          cases hs
          exact steps_descend ds h _ hx
        | panic => rw [hx] at hs; cases hs
        | diverge => rw [hx] at hs; cases hs
  | setLock r b =>
    simp only [Call.seq, RHeap.setLock] at hs
    split at hs
    · cases hs
    · rename_i ro hr
      cases hs
      exact .last (by simp [Call.first, step1, hr])
  | fill ga as =>
    simp only [Call.seq, RHeap.groupAddAttributes] at hs
    split at hs
    · cases hs
    · rename_i G hG
      cases hs
      exact steps_fill as h G hG

/-- A call that nobody interrupts does what the sequential description says. -/
theorem C91_alone {h h' : RHeap} {call : Call} {e : Option Err} (hs : call.seq h = .ok (e, h'))
    {ts : List Thread} {i : Nat} {t : Thread} {rest : List Call} (ht : ts[i]? = some t) (hc : t.cur = none)
    (hr : t.todo = call :: rest) :
    ∃ n, Conf.run { heap := h, ts := ts } (List.replicate n i) =
      some { heap := h', ts := ts.set i { cur := none, todo := rest, out := t.out ++ [(call, e)] } } := by
  have hl := (List.getElem?_eq_some_iff.1 ht).1
  obtain ⟨n, hn⟩ := steps_run (steps_call hs) (ts.set i { t with cur := some (call, call.first), todo := rest }) i _
    (List.getElem?_set_self hl) rfl
  refine ⟨n + 1, ?_⟩
  rw [List.set_set] at hn
  simp [List.replicate_succ, Conf.run, Conf.step, ht, hc, hr, hn]

/-- Hypotheses met: the role has group "g", both goroutines grant under it, and one of them creates "h". -/
def exShared : RHeap where
  roles := [{ id := str "r", perms := [(str "g", 0)] }]
  groups := [{ id := str "g", perms := [(str "/c GET", ⟨str "/c", str "GET"⟩)] }]

def exCalls : List (List Call) :=
  [[.grant 0 (str "g") [⟨str "/a", str "GET"⟩], .grant 0 (str "h") [⟨str "/d", str "GET"⟩]],
   [.grant 0 (str "g") [⟨str "/b", str "GET"⟩]]]

theorem exShared_ok : Spec.RHeap.OK exShared := by
  have hg : ∀ g ∈ exShared.groups, g = { id := str "g", perms := [(str "/c GET", ⟨str "/c", str "GET"⟩)] } := by
    simp [exShared]
  have hr : ∀ r ∈ exShared.roles, r = { id := str "r", perms := [(str "g", 0)] } := by simp [exShared]
  refine ⟨?_, ?_, ?_, ?_, ?_, ?_⟩
  · intro r h; rw [hr r h]; simp
  · intro r h; rw [hr r h]; simp [exShared]
  · intro r h; rw [hr r h]; simp [GoMap.WF]
  · intro r h; rw [hr r h]; simp [GoMap.WF]
  · intro g h; rw [hg g h]; simp [GoMap.WF]
  · intro g h; rw [hg g h]; decide +kernel

theorem exCalls_valid : Valid exShared exCalls := by
  intro l hl
  simp only [exCalls, List.mem_cons, List.not_mem_nil, or_false] at hl
  rcases hl with rfl | rfl <;> constructor <;> intros <;> simp_all

theorem exCalls_calm : Calm exShared exCalls 0 (str "g") ∧ Calm exShared exCalls 0 (str "h") := by
  refine ⟨Or.inl ⟨_, rfl, by decide +kernel⟩, Or.inr ?_⟩
  have hgh : str "g" ≠ str "h" := by decide +kernel
  have key : ∀ (i : Nat) (l : List Call), exCalls[i]? = some l → ∀ x ∈ l, x.touches exShared 0 (str "h") → i = 0 := by
    intro i l hl x hx ht
    match i with
    | 0 => rfl
    | 1 =>
      cases hl
      simp only [List.mem_singleton] at hx
      subst hx
      exact absurd ht.2 hgh
    | i + 2 => simp [exCalls] at hl
  intro i j l m hl hm x hx y hy h1 h2
  rw [key i l hl x hx h1, key j m hm y hy h2]

example : ((Conf.start exShared exCalls).run [0, 0, 0, 1, 1, 1, 1, 0, 0, 0, 1, 1, 0, 0, 0, 0, 0, 0]).map (·.heap) =
    some { roles := [{ id := str "r", perms := [(str "g", 0), (str "h", 1)] }],
           groups := [{ id := str "g", perms := [(str "/c GET", ⟨str "/c", str "GET"⟩),
                         (str "/a GET", ⟨str "/a", str "GET"⟩), (str "/b GET", ⟨str "/b", str "GET"⟩)] },
                      { id := str "h", perms := [(str "/d GET", ⟨str "/d", str "GET"⟩)] }] } := by
  decide +kernel

/-- The call changes role `r` unless it is locked. -/
def Call.on (r : Nat) : Call → Prop
  | .grant r' _ _ => r' = r
  | .addGroup r' _ => r' = r
  | .descend r' _ => r' = r
  | _ => False

/-- The calls a goroutine is in or has still to make. -/
def Thread.ahead (t : Thread) : List Call := t.cur.toList.map (·.1) ++ t.todo

/-- Nobody is going to unlock `r`, and nobody has passed the check of its lock. -/
def Conf.Still (c : Conf) (r : Nat) : Prop :=
  ∀ t ∈ c.ts, Call.setLock r false ∉ t.ahead ∧ ∀ call s, t.cur = some (call, s) → call.on r → s = .gate

/-- The full claim: once `Lock` has returned, the role stays as it is, if nobody calls `Unlock`. -/
def C92_full : Prop :=
  ∀ (h0 : RHeap), Spec.RHeap.OK h0 → ∀ (calls : List (List Call)) (r : Nat),
    (∀ l ∈ calls, Call.setLock r false ∉ l) → ∀ (is js : List Nat) (c c' : Conf),
    (Conf.start h0 calls).run is = some c → (∃ t ∈ c.ts, (Call.setLock r true, none) ∈ t.out) →
    c.run js = some c' → c'.heap.roles[r]? = c.heap.roles[r]?

/-- A goroutine checks the lock, the role is locked, and then the goroutine adds its permission. -/
theorem C92_counterexample : ∃ c c',
    (Conf.start exHeap [[.grant 0 (str "g") [⟨str "/a", str "GET"⟩]], [.setLock 0 true]]).run [0, 0, 1, 1] = some c ∧
    (∃ t ∈ c.ts, (Call.setLock 0 true, none) ∈ t.out) ∧ c.run [0, 0, 0, 0] = some c' ∧
    c.heap.roles[0]? = some { id := str "r", lock := true } ∧
    c'.heap.roles[0]? = some { id := str "r", perms := [(str "g", 0)], lock := true } := by
  refine ⟨_, _, rfl, ⟨_, List.mem_cons_of_mem _ (List.mem_singleton.2 rfl), by simp⟩, rfl, ?_, ?_⟩ <;> decide +kernel

theorem C92_full_false : ¬ C92_full := by
  intro h
  obtain ⟨c, c', h1, h2, h3, h4, h5⟩ := C92_counterexample
  have := h exHeap exHeap_ok _ 0 (by simp) _ _ c c' h1 h2 h3
  rw [h4, h5] at this
  revert this
  decide +kernel

theorem on_entry {call : Call} {r : Nat} : call.on r ↔ ∃ s, call.entry = some (r, s) := by
  cases call <;> simp [Call.on, Call.entry]

theorem Call.on_first {call : Call} {r : Nat} (h : call.on r) : call.first = .gate := by
  cases call <;> first | rfl | cases h

/-- What an access does to role `r`. -/
theorem Acc.role {h h' : RHeap} {call : Call} {s : Spot} {n : Next} (a : Acc h call s h' n) (r : Nat) :
    h'.roles[r]? = h.roles[r]? ∨ (call.on r ∧ s ≠ .gate) ∨
    ∃ b ro, call = .setLock r b ∧ h.roles[r]? = some ro ∧ h'.roles[r]? = some { ro with lock := b } := by
  have key : ∀ {r' : Nat} {ro' : RoleObj}, (h.roles.set r' ro')[r]? = h.roles[r]? ∨ r' = r := by
    intro r' ro'
    by_cases hr : r' = r
    · exact Or.inr hr
    · exact Or.inl (List.getElem?_set_ne hr)
  cases a with
  | store hr => exact key.imp_right fun h => Or.inl ⟨h, by simp⟩
  | gset hr hG => exact key.imp_right fun h => Or.inl ⟨h, by simp⟩
  | dset hd hr => exact key.imp_right fun h => Or.inl ⟨h, by simp⟩
  | lock hr =>
    rename_i r' b ro
    refine (key (r' := r') (ro' := { ro with lock := b })).imp_right fun h => ?_
    subst h
    exact Or.inr ⟨b, ro, rfl, hr, List.getElem?_set_self (List.getElem?_eq_some_iff.1 hr).1⟩
  | _ => exact Or.inl rfl

/-- At the gate of a locked role a call is refused. -/
theorem Acc.at_gate {h h' : RHeap} {call : Call} {n : Next} {r : Nat} {ro : RoleObj} (a : Acc h call .gate h' n)
    (hon : call.on r) (hr : h.roles[r]? = some ro) (hl : ro.lock = true) :
    n = .ret (some .changesNotAllowed) := by
  obtain ⟨s, hs⟩ := on_entry.1 hon
  cases a with
  | shut => rfl
  | enter he hr' hl' =>
    rw [hs] at he; cases he
    rw [hr] at hr'; cases hr'
    rw [hl] at hl'; cases hl'

/-- One step of goroutines that leave a locked role alone. -/
theorem still_step {r : Nat} {ro : RoleObj} (hl : ro.lock = true) {c c' : Conf} {i : Nat} (q : c.Still r)
    (hr : c.heap.roles[r]? = some ro) (e : c.step i = some c') :
    c'.Still r ∧ c'.heap.roles[r]? = some ro ∧
    ∀ (j : Nat) t', c'.ts[j]? = some t' → ∃ t, c.ts[j]? = some t ∧ ∃ new, t'.out = t.out ++ new ∧
      ∀ en ∈ new, en.1.on r → en.2 = some Err.changesNotAllowed := by
  obtain ⟨t, t', ht, ht', hts, ho, hk⟩ := step_cases e
  have hm : t ∈ c.ts := List.mem_of_getElem? ht
  obtain ⟨q1, q2⟩ := q t hm
  have hrole : ∀ call s n, t.cur = some (call, s) → Acc c.heap call s c'.heap n → c'.heap.roles[r]? = some ro := by
    intro call s n hc a
    rcases a.role r with h | ⟨h1, h2⟩ | ⟨b, ro', rfl, h1, h2⟩
    · rw [h]; exact hr
    · exact absurd (q2 _ _ hc h1) h2
    · have hb : b = true := by
        cases b with
        | true => rfl
        | false => exact absurd (List.mem_append_left _ (by simp [hc])) q1
      subst hb
      rw [hr] at h1; cases h1
      rw [h2, ← hl]
  have hsame : (∀ call s, t'.cur = some (call, s) → call.on r → s = .gate) → (∀ x ∈ t'.ahead, x ∈ t.ahead) →
      c'.Still r := by
    intro h1 h2 u hu
    rcases mem_ts hts hu with rfl | hu
    · exact ⟨fun h => q1 (h2 _ h), h1⟩
    · exact q u hu
  have hout : ∀ new, t'.out = t.out ++ new → (∀ en ∈ new, en.1.on r → en.2 = some Err.changesNotAllowed) →
      ∀ (j : Nat) u', c'.ts[j]? = some u' → ∃ u, c.ts[j]? = some u ∧ ∃ new, u'.out = u.out ++ new ∧
      ∀ en ∈ new, en.1.on r → en.2 = some Err.changesNotAllowed := by
    intro new h1 h2 j u' hu'
    by_cases hji : j = i
    · subst hji
      rw [ht'] at hu'; cases hu'
      exact ⟨t, ht, new, h1, h2⟩
    · rw [ho j hji] at hu'
      exact ⟨u', hu', [], by simp, by simp⟩
  rcases hk with ⟨call, rest, h1, h2, hh, rfl⟩ | ⟨call, s, s', h1, a, rfl⟩ | ⟨call, s, er, h1, a, rfl⟩
  · refine ⟨hsame ?_ (by simp [Thread.ahead, h1, h2]), by rw [hh]; exact hr, hout [] (by simp) (by simp)⟩
    intro call' s hc hon
    cases hc
    exact Call.on_first hon
  · refine ⟨hsame ?_ (by simp [Thread.ahead, h1]), hrole _ _ _ h1 a, hout [] (by simp) (by simp)⟩
    intro call' s1 hc hon
    cases hc
    have hs := q2 _ _ h1 hon
    subst hs
    cases a.at_gate hon hr hl
  · refine ⟨hsame (by simp) (fun x hx => List.mem_append_right _ (by simpa [Thread.ahead] using hx)), hrole _ _ _ h1 a, hout [(call, er)] rfl ?_⟩
    intro en hen hon
    rw [List.mem_singleton] at hen
    subst hen
    have hs := q2 _ _ h1 hon
    subst hs
    cases a.at_gate hon hr hl
    rfl

/-- If nobody has passed the check when the role is locked, it stays as it is until somebody calls
`Unlock`, and every call that would change it is refused. -/
theorem C92_locked_partial {r : Nat} {ro : RoleObj} (hl : ro.lock = true) : ∀ (js : List Nat) {c c' : Conf},
    c.Still r → c.heap.roles[r]? = some ro → c.run js = some c' →
    c'.heap.roles[r]? = some ro ∧
    ∀ (j : Nat) t', c'.ts[j]? = some t' → ∃ t, c.ts[j]? = some t ∧ ∃ new, t'.out = t.out ++ new ∧
      ∀ en ∈ new, en.1.on r → en.2 = some Err.changesNotAllowed := by
  intro js
  induction js with
  | nil =>
    intro c c' q hr e
    cases e
    exact ⟨hr, fun j t ht => ⟨t, ht, [], by simp, by simp⟩⟩
  | cons j js ih =>
    intro c c' q hr e
    simp only [Conf.run, Option.bind_eq_some_iff] at e
    obtain ⟨c1, h1, h2⟩ := e
    obtain ⟨q1, hr1, ho1⟩ := still_step hl q hr h1
    obtain ⟨hr2, ho2⟩ := ih q1 hr1 h2
    refine ⟨hr2, fun k t' ht' => ?_⟩
    obtain ⟨t1, ht1, n1, e1, p1⟩ := ho2 k t' ht'
    obtain ⟨t, ht, n0, e0, p0⟩ := ho1 k t1 ht1
    refine ⟨t, ht, n0 ++ n1, by rw [e1, e0, List.append_assoc], fun en hen hon => ?_⟩
    rcases List.mem_append.1 hen with h | h
    · exact p0 en h hon
    · exact p1 en h hon

/-- Nobody but role `r` has the group object `ga`, or is about to change it. -/
def Conf.Private (c : Conf) (r ga : Nat) : Prop :=
  (∀ (r' : Nat) ro' g, r' ≠ r → c.heap.roles[r']? = some ro' → ro'.perms.get g ≠ some ga) ∧
  ∀ t ∈ c.ts, (∀ r', Call.addGroup r' ga ∉ t.ahead) ∧ (∀ as, Call.fill ga as ∉ t.ahead) ∧
    ∀ r' g as0, (∀ as, t.cur ≠ some (.grant r' g as0, .keep ga as)) ∧
      ∀ b as, t.cur ≠ some (.grant r' g as0, .attr ga b as)

theorem still_group {r ga : Nat} {c c' : Conf} {i : Nat} (q : c.Still r) (pr : c.Private r ga) {G : GroupObj} (hG : c.heap.groups[ga]? = some G)
    (e : c.step i = some c') : c'.Private r ga ∧ c'.heap.groups[ga]? = some G := by
  obtain ⟨t, t', ht, ht', hts, ho, hk⟩ := step_cases e
  have hm : t ∈ c.ts := List.mem_of_getElem? ht
  obtain ⟨q1, q2⟩ := q t hm
  obtain ⟨p1, p2, p3⟩ := pr.2 t hm
  have hslot : ∀ call s n, t.cur = some (call, s) → Acc c.heap call s c'.heap n →
      ∀ (r' : Nat) ro' g, r' ≠ r → c'.heap.roles[r']? = some ro' → ro'.perms.get g ≠ some ga := by
    intro call s n hc a r' ro' g hne hro' hg
    have hs : slot c'.heap r' g = some ga := by rw [slot_of hro']; exact hg
    rcases a.slot r' g with h | ⟨as, gb, rfl, rfl, h⟩ | ⟨gb, G', rfl, rfl, hG', hid, h⟩
    · rw [hs] at h
      simp only [slot] at h
      obtain ⟨ro1, h1, h2⟩ := Option.bind_eq_some_iff.1 h.symm
      exact pr.1 r' ro1 g hne h1 h2
    · rw [hs] at h; cases h
      exact (p3 r' g as).1 _ hc
    · rw [hs] at h; cases h
      exact p1 r' (List.mem_append_left _ (by simp [hc]))
  have hgroup : ∀ call s n, t.cur = some (call, s) → Acc c.heap call s c'.heap n → c'.heap.groups[ga]? = some G := by
    intro call s n hc a
    generalize hh : c'.heap = h' at a
    cases a with
    | fresh =>
      show (c.heap.groups ++ _)[ga]? = some G
      rw [List.getElem?_append_left (List.getElem?_eq_some_iff.1 hG).1]; exact hG
    | put hG' =>
      rename_i r' g as0 gb b as G'
      by_cases hab : gb = ga
      · subst hab
        exact absurd hc ((p3 r' g as0).2 b as)
      · show (c.heap.groups.set _ _)[ga]? = some G
        rw [List.getElem?_set_ne hab]; exact hG
    | fset hG' =>
      rename_i gb as0 b as G'
      by_cases hab : gb = ga
      · subst hab
        exact absurd (List.mem_append_left _ (by simp [hc])) (p2 as0)
      · show (c.heap.groups.set _ _)[ga]? = some G
        rw [List.getElem?_set_ne hab]; exact hG
    | _ => exact hG
  have hpriv : (∀ (r' : Nat) ro' g, r' ≠ r → c'.heap.roles[r']? = some ro' → ro'.perms.get g ≠ some ga) →
      (∀ x ∈ t'.ahead, x ∈ t.ahead) →
      (∀ r' g as0, (∀ as, t'.cur ≠ some (.grant r' g as0, .keep ga as)) ∧
        ∀ b as, t'.cur ≠ some (.grant r' g as0, .attr ga b as)) → c'.Private r ga := by
    intro h0 h1 h2
    refine ⟨h0, fun u hu => ?_⟩
    rcases mem_ts hts hu with rfl | hu
    · exact ⟨fun r' h => p1 r' (h1 _ h), fun as h => p2 as (h1 _ h), h2⟩
    · exact pr.2 u hu
  rcases hk with ⟨call, rest, h1, h2, hh, rfl⟩ | ⟨call, s, s', h1, a, rfl⟩ | ⟨call, s, er, h1, a, rfl⟩
  · refine ⟨hpriv (by rw [hh]; exact pr.1) (by simp [Thread.ahead, h1, h2]) ?_, by rw [hh]; exact hG⟩
    intro r' g as0
    constructor
    · intro as h; cases call <;> cases h
    · intro b as h; cases call <;> cases h
  · refine ⟨hpriv (hslot _ _ _ h1 a) (by simp [Thread.ahead, h1]) ?_, hgroup _ _ _ h1 a⟩
    intro r' g as0
    constructor
    · intro as h
      cases h
      rcases a.to_keep with ⟨rfl, hh, hsl, rfl⟩ | ⟨rfl, hh, hsl, hga, rfl⟩ | ⟨b, G, rfl, hh, hG, hx⟩ | ⟨b, G, rfl, hG, hh⟩
      · by_cases hne : r' = r
        · subst hne
          exact absurd (q2 _ _ h1 rfl) (by simp)
        · simp only [slot] at hsl
          obtain ⟨ro1, h3, h4⟩ := Option.bind_eq_some_iff.1 hsl
          exact pr.1 r' ro1 g hne h3 h4
      · have := (List.getElem?_eq_some_iff.1 hG).1
        rw [hga] at this
        exact Nat.lt_irrefl _ this
      · exact (p3 r' g as0).1 _ h1
      · exact (p3 r' g as0).2 _ _ h1
    · intro b as h
      cases h
      obtain ⟨rfl, _⟩ := a.to_attr
      exact (p3 r' g as0).1 _ h1
  · refine ⟨hpriv (hslot _ _ _ h1 a) (fun x hx => List.mem_append_right _ (by simpa [Thread.ahead] using hx)) ?_, hgroup _ _ _ h1 a⟩
    intro r' g as0
    exact ⟨(fun as h => by cases h), (fun b as h => by cases h)⟩

/-- In the same situation, the groups only the locked role has stay as they are. -/
theorem C92_groups_partial {r ga : Nat} {ro : RoleObj} (hl : ro.lock = true) {js : List Nat} {c c' : Conf}
    (q : c.Still r) (hr : c.heap.roles[r]? = some ro) (pr : c.Private r ga) {G : GroupObj}
    (hG : c.heap.groups[ga]? = some G) (e : c.run js = some c') : c'.heap.groups[ga]? = some G :=
  (run_inv (P := fun c => c.Still r ∧ c.heap.roles[r]? = some ro ∧ c.Private r ga ∧ c.heap.groups[ga]? = some G)
    (fun _ _ _ h e => by
      obtain ⟨q, hr, pr, hG⟩ := h
      obtain ⟨h1, h2, _⟩ := still_step hl q hr e
      obtain ⟨h3, h4⟩ := still_group q pr hG e
      exact ⟨h1, h2, h3, h4⟩) js ⟨q, hr, pr, hG⟩ e).2.2.2

/-- Hypotheses met: the role of `exShared`, locked, and two goroutines about to grant. -/
def exLocked : Conf :=
  .start { exShared with roles := [{ id := str "r", perms := [(str "g", 0)], lock := true }] } exCalls

theorem exLocked_still : exLocked.Still 0 ∧ exLocked.Private 0 0 := by
  constructor
  · intro t ht
    simp only [exLocked, Conf.start, exCalls, List.map_cons, List.map_nil, List.mem_cons, List.not_mem_nil,
      or_false] at ht
    rcases ht with rfl | rfl <;> simp [Thread.ahead]
  · constructor
    · intro r' ro' g hne h
      cases r' with
      | zero => exact absurd rfl hne
      | succ n => simp [exLocked, Conf.start] at h
    · intro t ht
      simp only [exLocked, Conf.start, exCalls, List.map_cons, List.map_nil, List.mem_cons, List.not_mem_nil,
        or_false] at ht
      rcases ht with rfl | rfl <;> simp [Thread.ahead]

example : ((exLocked.run [0, 1, 0, 1, 0, 0]).map fun c => (c.heap == exLocked.heap, c.ts.map fun t => t.out.map (·.2))) =
    some (true, [[some .changesNotAllowed, some .changesNotAllowed], [some .changesNotAllowed]]) := by
  decide +kernel

end GC
end Verif
