import Verif.Props.Isolation
import Verif.Lemmas.Grow

/-!
# Root manager: no call takes access away (C81)

The package has no call that removes anything.  What a decision depends on only grows: registries, the role graph, the
rows - except that a row is lost to a later one with the same values in order (C09) - and the tenants cached for a
principal, which never change.
-/

namespace Verif
open Spec
variable {w w' v v' : Mgr}

/-- What every call keeps. -/
structure Keeps (w v : Mgr) : Prop where
  heap : HGrow w.heap v.heap
  log : ∃ rows, v.log = w.log ++ rows
  cache : ∀ p J, w.pcache.get p = some J → v.pcache.get p = some J

namespace Keeps

theorem of_eq (h1 : v.heap = w.heap) (h2 : v.log = w.log) (h3 : v.pcache = w.pcache) : Keeps w v :=
  ⟨h1 ▸ .refl _, ⟨[], by simp [h2]⟩, fun p J h => h3 ▸ h⟩

theorem refl (w : Mgr) : Keeps w w := of_eq rfl rfl rfl

theorem trans {a b c : Mgr} (h1 : Keeps a b) (h2 : Keeps b c) : Keeps a c := by
  obtain ⟨l1, e1⟩ := h1.log
  obtain ⟨l2, e2⟩ := h2.log
  exact ⟨h1.heap.trans h2.heap, ⟨l1 ++ l2, by rw [e2, e1, List.append_assoc]⟩, fun p J h => h2.cache p J (h1.cache p J h)⟩

theorem inserted {rows : List Data} (h : Inserted w v rows) : Keeps w v :=
  ⟨by rw [h]; exact .refl _, ⟨rows, by rw [h]⟩, fun p J hp => by rw [h]; exact hp⟩

theorem addData {d : Data} (h : w.addData d = .ok v) : Keeps w v := by
  obtain ⟨t, _, rfl⟩ := Out.map_eq_ok.1 h
  exact ⟨.refl _, ⟨[d], rfl⟩, fun _ _ h => h⟩

theorem viaTenant {c : Nat} {row : TenantObj → Data} (h : w.withTenant c (fun t => w.addData (row t)) = .ok v) : Keeps w v := by
  obtain ⟨t, _, _, h⟩ := Mgr.withTenant_ok h
  exact addData h

theorem setDefault {c : Nat} {n : Str} (h : w.tSetDefaultNamespace c n = .ok v) : Keeps w v := by
  obtain ⟨t, _, _, h⟩ := Mgr.withTenant_ok h
  split at h <;> cases h <;> exact of_eq rfl rfl rfl

theorem addDescendant {c : Nat} {ds : List Nat} (h : w.tAddDescendant c ds = .ok v) : Keeps w v := by
  induction ds generalizing w with
  | nil => cases h; exact refl _
  | cons d ds ih =>
    rw [Mgr.tAddDescendant] at h
    split at h
    · rename_i ct dt hc hd
      have i1 : Keeps w (if (ct.desc.get dt.id).isSome then w
        else { w with tobjs := w.tobjs.set c { ct with desc := ct.desc.set dt.id d } }) := by
        split
        · exact refl _
        · exact of_eq rfl rfl rfl
      simp only at h
      generalize (if (ct.desc.get dt.id).isSome then w
        else { w with tobjs := w.tobjs.set c { ct with desc := ct.desc.set dt.id d } }) = w1 at i1 h
      split at h
      · exact i1.trans (ih h)
      · rw [Out.bind_eq_ok] at h
        obtain ⟨w2, h2, h⟩ := h
        rw [Out.bind_eq_ok] at h
        obtain ⟨w3, h3, h⟩ := h
        exact ((i1.trans (viaTenant h2)).trans (setDefault h3)).trans (ih h)
    · cases h

theorem implicit {o : Ord} {fuel : Nat} {site : List Val} {q : Str} {I : List Str} (inv : w.Inv)
    (h : w.implicitTenants o fuel site q = .ok (I, v)) : Keeps w v := by
  obtain ⟨_, h1, h2, h3, h4⟩ := Mgr.implicitTenants_inv inv h
  refine ⟨by rw [h1]; exact .refl _, ⟨[], by rw [h1]; simp⟩, fun p J hp => ?_⟩
  by_cases e : p = q
  · subst e
    rw [(h4 J hp).2]; exact hp
  · rw [h3 p e]; exact hp

theorem apply {op : MOp} (inv : w.Inv) (h : op.apply w = .ok v) : Keeps w v := by
  cases op with
  | role op =>
    obtain ⟨h1, h2, rfl⟩ := Out.map_eq_ok.1 h
    exact ⟨.apply h2, ⟨[], by simp⟩, fun _ _ h => h⟩
  | newTenant id => cases h; exact of_eq rfl rfl rfl
  | addTenant a =>
    obtain ⟨⟨x, w1⟩, h2, rfl⟩ := Out.map_eq_ok.1 h
    unfold Mgr.addTenant at h2
    split at h2
    · cases h2
    · cases h2; exact of_eq rfl rfl rfl
  | addNamespace id obj => cases h; exact of_eq rfl rfl rfl
  | addScope id obj => cases h; exact of_eq rfl rfl rfl
  | addPrincipal id obj => cases h; exact of_eq rfl rfl rfl
  | addRole r =>
    obtain ⟨⟨x, w1⟩, h2, rfl⟩ := Out.map_eq_ok.1 h
    unfold Mgr.addRole at h2
    split at h2
    · cases h2
    · cases h2; exact of_eq rfl rfl rfl
  | addAttribute a obj => cases h; exact of_eq rfl rfl rfl
  | addAttributeGroup ga =>
    obtain ⟨⟨x, w1⟩, h2, rfl⟩ := Out.map_eq_ok.1 h
    unfold Mgr.addAttributeGroup at h2
    split at h2
    · cases h2
    · cases h2; exact of_eq rfl rfl rfl
  | addData d => exact addData h
  | tAddNamespace c n => exact viaTenant h
  | tAddScopesToNamespace c n s => exact viaTenant h
  | tSetDefaultNamespace c n => exact setDefault h
  | tAddPrincipalInNamespace c p n r => exact viaTenant h
  | tAddRole c r => exact viaTenant h
  | tAddScope c s => exact viaTenant h
  | tAddDescendant c ds => exact addDescendant h
  | tAddPrincipalWithRole c p r m =>
    obtain ⟨⟨x, w1⟩, h2, rfl⟩ := Out.map_eq_ok.1 h
    obtain ⟨rows, i, _⟩ := withRole_rows inv h2
    exact inserted i
  | tAddPrincipal c p m rs =>
    obtain ⟨⟨x, w1⟩, h2, rfl⟩ := Out.map_eq_ok.1 h
    obtain ⟨rows, i, _⟩ := addPrincipal_rows inv h2
    exact inserted i
  | tAddScopeToPrincipal c p s m =>
    obtain ⟨⟨x, w1⟩, h2, rfl⟩ := Out.map_eq_ok.1 h
    obtain ⟨rows, i, _⟩ := toPrincipal_rows inv h2
    exact inserted i
  | tAssignScopes c p m ss =>
    obtain ⟨⟨x, w1⟩, h2, rfl⟩ := Out.map_eq_ok.1 h
    obtain ⟨rows, i, _⟩ := assignScopes_rows inv h2
    exact inserted i
  | addPermissionsToRole r g as =>
    obtain ⟨⟨e, h1⟩, h2, rfl⟩ := Out.map_eq_ok.1 h
    exact ⟨.addPermissionsToRole h2, ⟨[], by simp⟩, fun _ _ h => h⟩
  | tenantChildren o fuel site id =>
    obtain ⟨⟨x, w1⟩, h2, rfl⟩ := Out.map_eq_ok.1 h
    have := (Mgr.tenantChildren_spec inv h2).2.1
    exact of_eq (by simp only; rw [this]) (by simp only; rw [this]) (by simp only; rw [this])
  | implicitTenants o fuel site p =>
    obtain ⟨⟨x, w1⟩, h2, rfl⟩ := Out.map_eq_ok.1 h; exact implicit inv h2
  | authorize o fuel site p opts =>
    obtain ⟨⟨x, w1⟩, h2, rfl⟩ := Out.map_eq_ok.1 h
    rcases Mgr.authorize_inv h2 with ⟨rfl, _⟩ | ⟨_, I, hI⟩
    · exact refl _
    · exact implicit inv hI

theorem run {ops : List MOp} (inv : w.Inv) (h : MOp.run w ops = .ok v) : Keeps w v := by
  induction ops generalizing w with
  | nil => cases h; exact refl _
  | cons op ops ih =>
    obtain ⟨x, h1, h2⟩ := Out.bind_eq_ok.1 (show (op.apply w).bind (fun x => MOp.run x ops) = .ok v from h)
    exact (apply inv h1).trans (ih (MOp.apply_inv inv h1) h2)

end Keeps

/-- A row stored in `w` was replaced by a different row with the same values in order (C09). -/
def Replaced (w v : Mgr) : Prop :=
  ∃ d ∈ survivors (rowKey dataKeys) w.log, ∃ e ∈ survivors (rowKey dataKeys) v.log, d ≠ e ∧ rowKey dataKeys d = rowKey dataKeys e

/-- C81 as intended: once a request is granted, it is granted after any calls whatsoever. -/
def C81_full : Prop := ∀ (ops ops' : List MOp) (w w' v v' : Mgr) (p : Str) (opts : List Opt) (o o' : Ord) (fuel fuel' : Nat)
  (site site' : List Val) (b : Bool), MOp.run {} ops = .ok w → w.authorize o fuel site p opts = .ok (true, w') →
  MOp.run w' ops' = .ok v → v.authorize o' fuel' site' p opts = .ok (b, v') → b = true

theorem stored_or_replaced {d : Data} {rows : List Data} (hl : v.log = w.log ++ rows) (hd : Stored w d) : Stored v d ∨ Replaced w v := by
  have hm : d ∈ v.log := by
    rw [hl]
    exact List.mem_append_left _ (List.mem_filter.1 (List.mem_of_getLast? (survivors_mem.1 hd))).1
  have hf : d ∈ v.log.filter (fun e => decide (rowKey dataKeys e = rowKey dataKeys d)) := List.mem_filter.2 ⟨hm, by simp⟩
  obtain ⟨x, hx⟩ : ∃ x, (v.log.filter (fun e => decide (rowKey dataKeys e = rowKey dataKeys d))).getLast? = some x := by
    cases hl : (v.log.filter (fun e => decide (rowKey dataKeys e = rowKey dataKeys d))).getLast? with
    | none => rw [List.getLast?_eq_none_iff] at hl; rw [hl] at hf; cases hf
    | some x => exact ⟨x, rfl⟩
  have hk : rowKey dataKeys x = rowKey dataKeys d := by
    simpa using (List.mem_filter.1 (List.mem_of_getLast? hx)).2
  have hs : Stored v x := by
    unfold Stored
    rw [survivors_mem, hk, hx]
  by_cases e : d = x
  · exact .inl (e ▸ hs)
  · exact .inr ⟨d, hd, x, hs, e, hk.symm⟩

theorem decides_mono {p : Str} {c : Val} {r : Request} (rows : ∀ row, Stored w row → Stored v row)
    (roles : ∀ k a, (k, a) ∈ w.roles → (k, a) ∈ v.roles) (ok : RHeap.OK w.heap) (hg : HGrow w.heap v.heap)
    (h : Decides w p c r) : Decides v p c r := by
  rcases h with ⟨ha, g⟩ | ⟨g, act, e1, e2, row, role, a, h1, h2, h3, h4, h5⟩
  · refine .inl ⟨ha, ?_⟩
    rcases g with ⟨a1, a2, a3, row, b1, b2⟩ | ⟨a1, a2, a3, row, b1, b2⟩ | ⟨a1, a2, a3, row, b1, b2⟩ |
      ⟨a1, a2, a3, row, b1, b2⟩ | ⟨a1, a2, a3, own, row, b1, b2, b3, b4, b5⟩
    · exact .inl ⟨a1, a2, a3, row, rows _ b1, b2⟩
    · exact .inr (.inl ⟨a1, a2, a3, row, rows _ b1, b2⟩)
    · exact .inr (.inr (.inl ⟨a1, a2, a3, row, rows _ b1, b2⟩))
    · exact .inr (.inr (.inr (.inl ⟨a1, a2, a3, row, rows _ b1, b2⟩)))
    · exact .inr (.inr (.inr (.inr ⟨a1, a2, a3, own, row, rows _ b1, b2, b3, rows _ b4, b5⟩)))
  · refine .inr ⟨g, act, e1, e2, row, role, a, rows _ h1, ?_, h3, roles _ _ h4, hg.granted ok h5⟩
    rcases h2 with h2 | h2 | h2 | ⟨a1, a2, a3, own, b1, b2⟩
    · exact .inl h2
    · exact .inr (.inl h2)
    · exact .inr (.inr (.inl h2))
    · exact .inr (.inr (.inr ⟨a1, a2, a3, own, rows _ b1, b2⟩))

theorem known_mono {m m' : GoMap Str Nat} (h : ∀ k a, (k, a) ∈ m → (k, a) ∈ m') {x : Val} (hk : Known m x) : Known m' x := by
  rcases hk with hk | ⟨s, y, h1, h2⟩
  · exact .inl hk
  · exact .inr ⟨s, y, h1, h _ _ h2⟩

/-- C81. Once a request is granted, it is granted after any calls whatsoever, in every order the maps and rows may be
walked, unless a stored row was replaced by a different one with the same values in order.  Missing: that case (see
the counterexample). -/
theorem C81_keeps_partial {ops : List MOp} (inv : w.Inv) {p : Str} {opts : List Opt} {o o' : Ord} {fuel fuel' : Nat}
    {site site' : List Val} {b : Bool} (h1 : w.authorize o fuel site p opts = .ok (true, w')) (h2 : MOp.run w' ops = .ok v)
    (hn : ¬ Replaced w v) (h3 : v.authorize o' fuel' site' p opts = .ok (b, v')) : b = true := by
  obtain ⟨⟨x, hx⟩, I, hI, hne, ⟨q1, q2, q3⟩, c, hc, hd⟩ := (authorize_exact inv h1).1 rfl
  obtain ⟨inv', sb⟩ : w'.Inv ∧ Mgr.SameBut w w' := by
    rcases Mgr.authorize_inv h1 with ⟨_, e, _⟩ | ⟨_, K, hK⟩
    · cases e
    · exact ⟨(Mgr.implicitTenants_inv inv hK).1, (Mgr.implicitTenants_inv inv hK).2.1⟩
  have invv := MOp.run_inv inv' h2
  have kp := Keeps.run inv' h2
  have reg : ∀ k id a, (id, a) ∈ w.reg k → (id, a) ∈ v.reg k := by
    intro k id a ha
    have e : w'.reg k = w.reg k := by rw [sb]; cases k <;> rfl
    exact GoMap.get_some_mem (C22_never_forgets inv' h2 (by rw [e]; exact (GoMap.mem_iff_get (inv.reg k)).1 ha))
  have rows : ∀ row, Stored w row → Stored v row := by
    intro row hr
    obtain ⟨l, hl⟩ := kp.log
    have e : w'.log = w.log := by rw [sb]
    exact (stored_or_replaced (by rw [hl, e]) hr).resolve_right hn
  have hv : v'.pcache.get p = some I := by
    have k1 := kp.cache p I hI
    rcases Mgr.authorize_inv h3 with ⟨e, _⟩ | ⟨_, K, hK⟩
    · subst e; exact k1
    · have := (Mgr.implicitTenants_inv invv hK).2.2.2.2 I k1
      rw [this.2]; exact k1
  have hg : HGrow w.heap v.heap := by
    have e : w'.heap = w.heap := by rw [sb]
    exact e ▸ kp.heap
  exact (authorize_exact invv h3).2 ⟨⟨x, reg .principal _ _ hx⟩, I, hv, hne,
    ⟨known_mono (reg .tenant) q1, known_mono (reg .namespace_) q2, known_mono (reg .scope) q3⟩, c, hc,
    decides_mono rows (reg .role) inv.heap hg hd⟩

instance (w v : Mgr) : Decidable (Replaced w v) := inferInstanceAs (Decidable (∃ d ∈ survivors (rowKey dataKeys) w.log, _))

/-- Calls of every kind: new tenants, links, grants to others and to `p`, more permissions, a locked role. -/
def exLater : List MOp := [
  .newTenant (str "c"), .addTenant 3, .tAddDescendant 0 [3], .addPrincipal (str "q") 9, .tAddPrincipalWithRole 0 (str "q") (str "r") false,
  .addPrincipal (str "p") 7, .tAddPrincipalWithRole 3 (str "p") (str "r") false, .role (.addPerm 0 (str "h") [⟨str "/y", str "GET"⟩]),
  .role (.lock 0 true), .tAddScope 0 (str "s"), .authorize .rev 9 [] (str "p") [.tenant (.str (str "b"))]]

/-- C81. The hypotheses hold for a request with an activity. -/
example : ∃ w, MOp.run {} exWorld = .ok w ∧
    (w.authorize .fwd 9 [] (str "p") [.tenant (.str (str "a")), .namespace_ (.str (str "n")), .scope (.str (str "s")),
        .group (.str (str "g")), .activity (.str (str "/x GET"))]).Chk fun x => x.1 = true ∧
      (MOp.run x.2 exLater).Chk fun v => ¬ Replaced w v ∧ v.log.length = w.log.length + 3 ∧
        (v.authorize .rev 9 [] (str "p") [.tenant (.str (str "a")), .namespace_ (.str (str "n")), .scope (.str (str "s")),
          .group (.str (str "g")), .activity (.str (str "/x GET"))]).map (·.1) = .ok true := Out.chk_ok (by decide +kernel)

/-- C81. Giving scope "p" to the principal "r" overwrites the row that gives role "r" to the principal "p". -/
theorem C81_counterexample : ∃ w, MOp.run {} exClash = .ok w ∧
    (w.authorize .fwd 9 [] (str "p") [.tenant (.str (str "a"))]).Chk fun x => x.1 = true ∧
      (MOp.run x.2 [.tAddScopeToPrincipal 0 (str "r") (str "p") false]).Chk fun v =>
        (v.authorize .fwd 9 [] (str "p") [.tenant (.str (str "a"))]).map (·.1) = .ok false := Out.chk_ok (by decide +kernel)

/-- C81. So the intended property fails. -/
theorem C81_full_false : ¬ C81_full := by
  intro h
  obtain ⟨w, h1, h2⟩ := C81_counterexample
  obtain ⟨⟨b, w'⟩, h3, h4, h5⟩ := Out.chk_ok h2
  obtain ⟨v, h6, h7⟩ := Out.chk_ok h5
  obtain ⟨⟨b', v'⟩, h8, h9⟩ := Out.map_eq_ok.1 h7
  simp only at h4 h9; subst h4; subst h9
  cases h _ _ w w' v v' (str "p") _ .fwd .fwd 9 9 [] [] _ h1 h3 h6 h8

end Verif
