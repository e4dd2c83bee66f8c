import Verif.Props.AuthDuring
import Verif.Props.Origin

/-!
# The tree of rows is at most six deep (C117)
-/

namespace Verif
namespace AD
open Spec
variable {w v : Mgr}

theorem height_set {T : Type} {ch : Forest T} {k : Val} {n : Node T} : (ch.set k n).height ≤ max ch.height (n.height + 1) := by
  fun_induction Forest.set k n ch with
  | case1 => simp [Forest.height]
  | case2 => simp [Forest.height]; omega
  | case3 k' n' rest hne ih => simp only [Forest.height]; omega

theorem height_insert {T : Type} {x : T} {ks : List Val} {n : Node T} : (n.insert x ks).height ≤ max n.height ks.length := by
  induction ks generalizing n with
  | nil => cases n; simp [Node.insert, Node.height]
  | cons k ks ih =>
    cases n with
    | mk d ch =>
      rw [Node.insert]
      split
      · have := ih (n := .mk d ch); simp only [List.length_cons]; omega
      · simp only [Node.height, List.length_cons]
        have h1 := height_set (ch := ch) (k := k) (n := ((ch.get k).getD Node.new).insert x ks)
        have h2 := ih (n := (ch.get k).getD Node.new)
        have h3 : ((ch.get k).getD Node.new).height ≤ ch.height - 1 := by
          cases hg : ch.get k with
          | none => simp [Node.new, Node.height, Forest.height]
          | some m => have := height_get hg; simp; omega
        omega

/-- At most six deep. -/
def Low (w : Mgr) : Prop := w.Inv ∧ w.trie.root.height ≤ 6

theorem low_addData {d : Data} (hk : w.trie.keys = dataKeys) (l : w.trie.root.height ≤ 6) (h : w.addData d = .ok v) :
    v.trie.keys = dataKeys ∧ v.trie.root.height ≤ 6 := by
  obtain ⟨t, h1, rfl⟩ := Out.map_eq_ok.1 h
  simp only [Trie.insert, hk, dataKeys] at h1
  cases h1
  have := height_insert (x := d) (ks := [d.tenant, d.namespace_, d.scope, d.principal, d.role, d.manage]) (n := w.trie.root)
  simp only [List.length_cons, List.length_nil] at this
  exact ⟨rfl, by dsimp only; omega⟩

theorem Low.addData {d : Data} (l : Low w) (h : w.addData d = .ok v) : Low v :=
  ⟨l.1.addData h, (low_addData l.1.trie.keysEq l.2 h).2⟩

theorem Low.of (inv : v.Inv) (l : Low w) (h : v.trie = w.trie) : Low v := ⟨inv, by rw [h]; exact l.2⟩

theorem Low.via {c : Nat} {row : TenantObj → Data} (l : Low w) (h : w.withTenant c (fun t => w.addData (row t)) = .ok v) : Low v := by
  obtain ⟨t, _, _, h⟩ := Mgr.withTenant_ok h
  exact l.addData h

theorem trie_setDefault {c : Nat} {n : Str} (h : w.tSetDefaultNamespace c n = .ok v) : v.trie = w.trie := by
  obtain ⟨t, _, _, h⟩ := Mgr.withTenant_ok h
  split at h <;> cases h <;> rfl

theorem Low.descendant {c : Nat} {ds : List Nat} (l : Low w) (h : w.tAddDescendant c ds = .ok v) : v.trie.root.height ≤ 6 := by
  suffices H : ∀ ds (w : Mgr), w.trie.keys = dataKeys → w.trie.root.height ≤ 6 → w.tAddDescendant c ds = .ok v → v.trie.root.height ≤ 6 from
    H ds w l.1.trie.keysEq l.2 h
  intro ds
  induction ds with
  | nil => intro w _ l h; cases h; exact l
  | cons d ds ih =>
    intro w hk l h
    rw [Mgr.tAddDescendant] at h
    split at h
    · rename_i ct dt hc hd
      have i1 : (if (ct.desc.get dt.id).isSome then w
        else { w with tobjs := w.tobjs.set c { ct with desc := ct.desc.set dt.id d } }).trie = w.trie := by
        split <;> rfl
      simp only at h
      generalize (if (ct.desc.get dt.id).isSome then w
        else { w with tobjs := w.tobjs.set c { ct with desc := ct.desc.set dt.id d } }) = w1 at i1 h
      rw [← i1] at hk l
      split at h
      · exact ih w1 hk l h
      · rw [Out.bind_eq_ok] at h
        obtain ⟨w2, h2, h⟩ := h
        rw [Out.bind_eq_ok] at h
        obtain ⟨w3, h3, h⟩ := h
        obtain ⟨t, _, _, h4⟩ := Mgr.withTenant_ok h2
        have h5 := low_addData hk l h4
        refine ih w3 ?_ ?_ h
        · rw [trie_setDefault h3]; exact h5.1
        · rw [trie_setDefault h3]; exact h5.2
    · cases h

theorem Low.withRole {c : Nat} {p r : Str} {m : Bool} {e : Option Err} (l : Low w) (h : w.tAddPrincipalWithRole c p r m = .ok (e, v)) : Low v := by
  obtain ⟨t, _, _, h⟩ := Mgr.withTenant_ok h
  split at h
  · cases h; exact l
  split at h
  · cases h; exact l
  rw [Out.bind_eq_ok] at h
  obtain ⟨w1, h1, h⟩ := h
  split at h
  · cases h; exact l.addData h1
  · obtain ⟨w2, h2, h⟩ := Out.map_eq_ok.1 h
    cases h; exact (l.addData h1).addData h2

theorem Low.toPrincipal {c : Nat} {p r : Str} {m : Bool} {e : Option Err} (l : Low w) (h : w.tAddScopeToPrincipal c p r m = .ok (e, v)) : Low v := by
  obtain ⟨t, _, _, h⟩ := Mgr.withTenant_ok h
  split at h
  · cases h; exact l
  split at h
  · cases h; exact l
  rw [Out.bind_eq_ok] at h
  obtain ⟨w1, h1, h⟩ := h
  split at h
  · cases h; exact l.addData h1
  · obtain ⟨w2, h2, h⟩ := Out.map_eq_ok.1 h
    cases h; exact (l.addData h1).addData h2

theorem Low.principal {c : Nat} {p : Str} {m : Bool} {rs : List Str} {e : Option Err} (l : Low w) (h : w.tAddPrincipal c p m rs = .ok (e, v)) : Low v := by
  induction rs generalizing w with
  | nil => cases h; exact l
  | cons r rs ih =>
    obtain ⟨⟨e1, w1⟩, h1, h⟩ := Out.bind_eq_ok.1 h
    dsimp only at h
    split at h
    · cases h; exact l.withRole h1
    · exact ih (l.withRole h1) h

theorem Low.scopes {c : Nat} {p : Str} {m : Bool} {rs : List Str} {e : Option Err} (l : Low w) (h : w.tAssignScopes c p m rs = .ok (e, v)) : Low v := by
  induction rs generalizing w with
  | nil => cases h; exact l
  | cons r rs ih =>
    obtain ⟨⟨e1, w1⟩, h1, h⟩ := Out.bind_eq_ok.1 h
    dsimp only at h
    split at h
    · cases h; exact l.toPrincipal h1
    · exact ih (l.toPrincipal h1) h

theorem Low.apply {op : MOp} (l : Low w) (h : op.apply w = .ok v) : Low v := by
  have inv := MOp.apply_inv l.1 h
  cases op with
  | role op => obtain ⟨h1, h2, rfl⟩ := Out.map_eq_ok.1 h; exact .of inv l rfl
  | newTenant id => cases h; exact .of inv l rfl
  | addTenant a =>
    obtain ⟨⟨x, w1⟩, h2, rfl⟩ := Out.map_eq_ok.1 h
    unfold Mgr.addTenant at h2
    split at h2 <;> cases h2; exact .of inv l rfl
  | addNamespace id obj => cases h; exact .of inv l rfl
  | addScope id obj => cases h; exact .of inv l rfl
  | addPrincipal id obj => cases h; exact .of inv l rfl
  | addRole r =>
    obtain ⟨⟨x, w1⟩, h2, rfl⟩ := Out.map_eq_ok.1 h
    unfold Mgr.addRole at h2
    split at h2 <;> cases h2; exact .of inv l rfl
  | addAttribute a obj => cases h; exact .of inv l rfl
  | addAttributeGroup ga =>
    obtain ⟨⟨x, w1⟩, h2, rfl⟩ := Out.map_eq_ok.1 h
    unfold Mgr.addAttributeGroup at h2
    split at h2 <;> cases h2; exact .of inv l rfl
  | addData e => exact l.addData h
  | tAddNamespace c n => exact l.via h
  | tAddScopesToNamespace c n s => exact l.via h
  | tSetDefaultNamespace c n => exact .of inv l (trie_setDefault h)
  | tAddPrincipalInNamespace c p n r => exact l.via h
  | tAddRole c r => exact l.via h
  | tAddScope c s => exact l.via h
  | tAddDescendant c ds => exact ⟨inv, l.descendant h⟩
  | tAddPrincipalWithRole c p r m => obtain ⟨⟨e, w1⟩, h2, rfl⟩ := Out.map_eq_ok.1 h; exact l.withRole h2
  | tAddPrincipal c p m rs => obtain ⟨⟨e, w1⟩, h2, rfl⟩ := Out.map_eq_ok.1 h; exact l.principal h2
  | tAddScopeToPrincipal c p s m => obtain ⟨⟨e, w1⟩, h2, rfl⟩ := Out.map_eq_ok.1 h; exact l.toPrincipal h2
  | tAssignScopes c p m ss => obtain ⟨⟨e, w1⟩, h2, rfl⟩ := Out.map_eq_ok.1 h; exact l.scopes h2
  | addPermissionsToRole r g as => obtain ⟨h1, h2, rfl⟩ := Out.map_eq_ok.1 h; exact .of inv l rfl
  | tenantChildren o fuel site id =>
    obtain ⟨⟨x, w1⟩, h2, rfl⟩ := Out.map_eq_ok.1 h
    have := (Mgr.tenantChildren_spec l.1 h2).2.1
    exact .of inv l (by simp only; rw [this])
  | implicitTenants o fuel site p =>
    obtain ⟨⟨x, w1⟩, h2, rfl⟩ := Out.map_eq_ok.1 h
    have := (Mgr.implicitTenants_inv l.1 h2).2.1
    exact .of inv l (by simp only; rw [this])
  | authorize o fuel site p opts =>
    obtain ⟨⟨x, w1⟩, h2, rfl⟩ := Out.map_eq_ok.1 h
    rcases Mgr.authorize_inv h2 with ⟨rfl, _⟩ | ⟨_, I, hI⟩
    · exact l
    · have := (Mgr.implicitTenants_inv l.1 hI).2.1
      exact .of inv l (by simp only; rw [this])

/-- C117. Whatever is called, the tree of rows is at most six deep. -/
theorem C117_depth {ops : List MOp} (h : MOp.run {} ops = .ok w) : w.trie.root.height ≤ 6 := by
  suffices H : ∀ (u : Mgr), Low u → MOp.run u ops = .ok w → Low w from (H {} ⟨Mgr.Inv.empty, by decide +kernel⟩ h).2
  clear h
  induction ops with
  | nil => intro u l h; cases h; exact l
  | cons op ops ih =>
    intro u l h
    rw [MOp.run, Out.bind_eq_ok] at h
    obtain ⟨u1, h1, h⟩ := h
    exact ih u1 (l.apply h1) h

/-- Six is reached. -/
example : ((MOp.run {} [.addData ⟨.str (str "t"), .str (str "n"), .str (str "s"), .str (str "p"), .str (str "r"), .bool true⟩]).map fun w =>
    decide (w.trie.root.height = 6)) = .ok true := by decide +kernel

/-- C117. After every history `Authorize` taken step by step without interruption is `Authorize` as described sequentially, whatever its answer
or failure, in every order that does not depend on the values ordered, for every bound on the depth of recursion above six. -/
theorem C117_histories {ops : List MOp} (h : MOp.run {} ops = .ok w) {o : Ord} (nat : o.Natural) {fuel : Nat} (hf : 6 < fuel) (site : List Val)
    (p : Str) (opts : List Opt) : (authorizeP o fuel site p opts).exec w = w.authorize o fuel site p opts :=
  C117_alone (MOp.reachable_inv h) nat (Nat.lt_of_le_of_lt (C117_depth h) hf) site p opts

end AD
end Verif
