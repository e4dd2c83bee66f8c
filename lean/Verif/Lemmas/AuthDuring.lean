import Verif.Model.AuthDuring
import Verif.Props.Keep
import Verif.Props.AuthConc

/-!
# What a program does among others that only add

Rely and guarantee are the same relation, `Later`.
-/

set_option linter.unusedSimpArgs false

namespace Verif
namespace AD
open Spec

/-- The state is sound, the lists cached in `C` are still cached, and every list cached for a principal has the tenants `S` of it. -/
structure Good (C : GoMap Str (List Str)) (S : Str → Str → Prop) (w : Mgr) : Prop where
  inv : w.Inv
  cached : ∀ p J, C.get p = some J → w.pcache.get p = some J
  own : ∀ p t, S p t → Member w p t ∧ ∀ J, w.pcache.get p = some J → t ∈ J

/-- Only more. -/
structure Later (C : GoMap Str (List Str)) (S : Str → Str → Prop) (w v : Mgr) : Prop where
  good : Good C S v
  reg : ∀ k id a, (w.reg k).get id = some a → (v.reg k).get id = some a
  heap : HGrow w.heap v.heap
  tobjs : Mgr.TExt w v
  rows : ∀ d, Stored w d → Stored v d
  log : ∀ d ∈ w.log, d ∈ v.log

variable {C : GoMap Str (List Str)} {S : Str → Str → Prop} {w v u : Mgr}

theorem Later.refl (g : Good C S w) : Later C S w w :=
  ⟨g, fun _ _ _ h => h, .refl _, .of_eq rfl, fun _ h => h, fun _ h => h⟩

theorem Later.trans (h1 : Later C S w v) (h2 : Later C S v u) : Later C S w u :=
  ⟨h2.good, fun k id a h => h2.reg k id a (h1.reg k id a h), h1.heap.trans h2.heap, h1.tobjs.trans h2.tobjs,
    fun d h => h2.rows d (h1.rows d h), fun d h => h2.log d (h1.log d h)⟩

/-- Whatever the others do, every step of the program only adds, and if it returns then `Q`. -/
def wp {α : Type} (C : GoMap Str (List Str)) (S : Str → Str → Prop) (Q : α → Mgr → Prop) : Prog α → Mgr → Prop
  | .ret a, w => ∀ v, Later C S w v → Q a v
  | .panic, _ => True
  | .diverge, _ => True
  | .step f k, w => ∀ v, Later C S w v → Later C S v (f v) ∧ wp C S Q (k v) (f v)

theorem wp.later {α : Type} {Q : α → Mgr → Prop} {q : Prog α} (h : wp C S Q q w) (hl : Later C S w v) : wp C S Q q v := by
  cases q with
  | ret a => exact fun u hu => h u (hl.trans hu)
  | panic => trivial
  | diverge => trivial
  | step f k => exact fun u hu => h u (hl.trans hu)

theorem wp.mono {α : Type} {Q Q' : α → Mgr → Prop} {q : Prog α} (h : wp C S Q q w)
    (hq : ∀ a v, Later C S w v → Q a v → Q' a v) : wp C S Q' q w := by
  induction q generalizing w with
  | ret a => exact fun v hv => hq a v hv (h v hv)
  | panic => trivial
  | diverge => trivial
  | step f k ih =>
    intro v hv
    obtain ⟨h1, h2⟩ := h v hv
    exact ⟨h1, ih v h2 fun a u hu => hq a u ((hv.trans h1).trans hu)⟩

theorem wp.bind {α β : Type} {Q : α → Mgr → Prop} {Q' : β → Mgr → Prop} {q : Prog α} {k : α → Prog β} (g : Good C S w)
    (h : wp C S Q q w) (hk : ∀ a v, Later C S w v → Q a v → wp C S Q' (k a) v) : wp C S Q' (q.bind k) w := by
  induction q generalizing w with
  | ret a => exact hk a w (.refl g) (h w (.refl g))
  | panic => trivial
  | diverge => trivial
  | step f n ih =>
    intro v hv
    obtain ⟨h1, h2⟩ := h v hv
    exact ⟨h1, ih v h1.good h2 fun a u hu => hk a u ((hv.trans h1).trans hu)⟩

theorem wp.rd {α β : Type} {Q : β → Mgr → Prop} {f : Mgr → α} {k : α → Prog β}
    (h : ∀ v, Later C S w v → wp C S Q (k (f v)) v) : wp C S Q (AD.rd f k) w :=
  fun v hv => ⟨.refl hv.good, h v hv⟩

theorem wp.ret {α : Type} {Q : α → Mgr → Prop} {a : α} (h : ∀ v, Later C S w v → Q a v) : wp C S Q (.ret a) w := h

theorem wp.local_ {α β : Type} {Q : β → Mgr → Prop} {x : Out α} {k : α → Prog β}
    (h : ∀ a, x = .ok a → wp C S Q (k a) w) : wp C S Q (AD.local_ x k) w := by
  cases x with
  | ok a => exact h a rfl
  | panic => trivial
  | diverge => trivial

/-! ## Searches -/

theorem Forest.names_eq {T : Type} (f : Forest T) : f.names = f.keys := by
  fun_induction Forest.names f with
  | case1 => rfl
  | case2 k n rest ih => rw [Forest.keys, ih]

theorem walk_find {T : Type} (p : List Val) (n : Node T) : (n.walk p).bind Node.row = n.find p := by
  induction p generalizing n with
  | nil => cases n; rfl
  | cons k ks ih =>
    cases n with
    | mk d ch =>
      rw [Node.walk, Node.find]
      cases ch.get k with
      | none => rfl
      | some m => exact ih m

theorem walk_names {T : Type} {p q : List Val} {k : Val} {n : Node T} {x : T} (h : n.find (p ++ k :: q) = some x) :
    k ∈ ((n.walk p).map Node.names).getD [] := by
  induction p generalizing n with
  | nil =>
    cases n with
    | mk d ch =>
      rw [List.nil_append, Node.find] at h
      split at h
      · cases h
      · rename_i m hm
        simp only [Node.walk, Option.map_some, Option.getD_some, Node.names]
        rw [Forest.names_eq]
        exact Forest.mem_keys_of_get hm
  | cons a p ih =>
    cases n with
    | mk d ch =>
      rw [List.cons_append, Node.find] at h
      rw [Node.walk]
      cases hg : ch.get a with
      | none => rw [hg] at h; cases h
      | some m => rw [hg] at h; exact ih h

theorem stored_find (inv : w.Inv) {d : Data} : Stored w d ↔ w.trie.root.find (rowKey dataKeys d) = some d := by
  rw [inv.trie.find, Stored, survivors_mem]

theorem find_stored (inv : w.Inv) {p : List Val} {d : Data} (h : w.trie.root.find p = some d) : Stored w d ∧ rowKey dataKeys d = p := by
  rw [inv.trie.find] at h
  have hk : rowKey dataKeys d = p := by simpa using (List.mem_filter.1 (List.mem_of_getLast? h)).2
  refine ⟨?_, hk⟩
  rw [Stored, survivors_mem, hk]; exact h

/-- Between what was there at the beginning and what is there at the end. -/
def Between (w v : Mgr) (P : Data → Prop) (M : List Data) : Prop :=
  (∀ d, Stored w d → P d → d ∈ M) ∧ ∀ d ∈ M, Stored v d ∧ P d

theorem loopP_wp {α : Type} {f : α → List Data → Prog (List Data)} {P : Data → Prop} {R : α → Data → Prop} {xs : List α}
    {res : List Data} (g : Good C S w)
    (hf : ∀ x ∈ xs, ∀ res u, Later C S w u → wp C S (fun M v => (∀ d ∈ res, d ∈ M) ∧ (∀ d, Stored w d → P d → R x d → d ∈ M) ∧
      ∀ d ∈ M, d ∈ res ∨ (Stored v d ∧ P d)) (f x res) u) :
    wp C S (fun M v => (∀ d ∈ res, d ∈ M) ∧ (∀ d, Stored w d → P d → (∃ x ∈ xs, R x d) → d ∈ M) ∧
      ∀ d ∈ M, d ∈ res ∨ (Stored v d ∧ P d)) (loopP f xs res) w := by
  have key : ∀ xs, (∀ x ∈ xs, ∀ res u, Later C S w u → wp C S (fun M v => (∀ d ∈ res, d ∈ M) ∧
      (∀ d, Stored w d → P d → R x d → d ∈ M) ∧ ∀ d ∈ M, d ∈ res ∨ (Stored v d ∧ P d)) (f x res) u) →
      ∀ res u, Later C S w u → wp C S (fun M v => (∀ d ∈ res, d ∈ M) ∧
      (∀ d, Stored w d → P d → (∃ x ∈ xs, R x d) → d ∈ M) ∧ ∀ d ∈ M, d ∈ res ∨ (Stored v d ∧ P d)) (loopP f xs res) u := by
    intro xs
    induction xs with
    | nil =>
      intro _ res u _
      exact wp.ret fun v _ => ⟨fun d h => h, (by rintro d _ _ ⟨x, hx, _⟩; cases hx), fun d h => .inl h⟩
    | cons x xs ih =>
      intro hf res u hu
      rw [loopP]
      refine wp.bind hu.good (hf x (by simp) res u hu) fun M v hv ⟨a1, a2, a3⟩ => ?_
      refine (ih (fun y hy => hf y (by simp [hy])) M v (hu.trans hv)).mono fun N z hz ⟨b1, b2, b3⟩ => ⟨fun d h => b1 d (a1 d h), ?_, ?_⟩
      · rintro d h1 h2 ⟨y, hy, h3⟩
        rcases List.mem_cons.1 hy with rfl | hy
        · exact b1 d (a2 d h1 h2 h3)
        · exact b2 d h1 h2 ⟨y, hy, h3⟩
      · intro d hd
        rcases b3 d hd with h | h
        · rcases a3 d h with h | h
          · exact .inl h
          · exact .inr ⟨hz.rows d h.1, h.2⟩
        · exact .inr h
  exact key xs hf res w (.refl g)

theorem visitP_wp {o : Ord} {pre : List Val} {cb : Data → Bool} {n : Nat} {path : List Val} {res : List Data} (g : Good C S w) :
    wp C S (fun M v => (∀ d ∈ res, d ∈ M) ∧ (∀ d, Stored w d → cb d = true → (∃ q, rowKey dataKeys d = path ++ q) → d ∈ M) ∧
      ∀ d ∈ M, d ∈ res ∨ (Stored v d ∧ cb d = true)) (visitP o pre cb n path res) w := by
  induction n generalizing path res w with
  | zero => trivial
  | succ n ih =>
    rw [visitP]
    refine wp.rd fun v hv => ?_
    simp only
    rw [walk_find]
    refine wp.rd fun u hu => ?_
    generalize hres : (match v.trie.root.find path with
      | some x => if cb x = true then res ++ [x] else res
      | none => res) = res'
    have r1 : ∀ d ∈ res, d ∈ res' := by
      intro d hd; subst hres
      split
      · split
        · simp [hd]
        · exact hd
      · exact hd
    have r2 : ∀ d, Stored w d → cb d = true → rowKey dataKeys d = path → d ∈ res' := by
      intro d h1 h2 h3
      have := (stored_find hv.good.inv).1 (hv.rows d h1)
      rw [h3] at this
      subst hres
      rw [this]; simp [h2]
    have r3 : ∀ d ∈ res', d ∈ res ∨ (Stored u d ∧ cb d = true) := by
      intro d hd; subst hres
      split at hd
      · rename_i x hx
        split at hd
        · rename_i hc
          rcases List.mem_append.1 hd with h | h
          · exact .inl h
          · rw [List.mem_singleton.1 h]
            exact .inr ⟨hu.rows x (find_stored hv.good.inv hx).1, hc⟩
        · exact .inl hd
      · exact .inl hd
    subst hres
    refine (loopP_wp (P := fun d => cb d = true) (R := fun k d => ∃ q, rowKey dataKeys d = path ++ [k] ++ q) hu.good ?_).mono ?_
    · intro k _ res u' hu'
      refine (ih hu'.good).mono fun M z hz ⟨a1, a2, a3⟩ => ⟨a1, fun d h1 h2 h3 => a2 d (hu'.rows d h1) h2 h3, a3⟩
    · rintro M z hz ⟨a1, a2, a3⟩
      refine ⟨fun d h => a1 d (r1 d h), ?_, ?_⟩
      · rintro d h1 h2 ⟨q, hq⟩
        cases q with
        | nil => exact a1 d (r2 d h1 h2 (by simpa using hq))
        | cons k q =>
          have hs := hu.rows d (hv.rows d h1)
          refine a2 d hs h2 ⟨k, ?_, q, by simpa using hq⟩
          rw [Ord.mem_ord]
          have := (stored_find hu.good.inv).1 hs
          rw [hq] at this
          exact walk_names this
      · intro d hd
        rcases a3 d hd with h | h
        · rcases r3 d h with h | h
          · exact .inl h
          · exact .inr ⟨hz.rows d h.1, h.2⟩
        · exact .inr h

theorem searchP_wp {o : Ord} {fuel : Nat} {site : List Val} {filter : Data} {f : Data → Data → Bool} (g : Good C S w) :
    wp C S (fun M v => Between w v (fun d => f filter d = true) M) (searchP o fuel site filter f) w :=
  (visitP_wp g).mono fun M v _ ⟨_, a2, a3⟩ =>
    ⟨fun d h1 h2 => a2 d h1 h2 ⟨_, rfl⟩, fun d hd => (a3 d hd).resolve_left (by simp)⟩

/-! ## Loops -/

theorem collectP_wp {α β : Type} {f : Nat → α → Prog (List β)} {L : α → β → Prop} {U : Mgr → α → β → Prop} {xs : List α} {i : Nat}
    (g : Good C S w) (stable : ∀ v u x y, Good C S v → Later C S v u → U v x y → U u x y)
    (hf : ∀ j, ∀ x ∈ xs, ∀ u, Later C S w u →
      wp C S (fun ys v => (∀ y, L x y → y ∈ ys) ∧ ∀ y ∈ ys, U v x y) (f j x) u) :
    wp C S (fun ys v => (∀ y, (∃ x ∈ xs, L x y) → y ∈ ys) ∧ ∀ y ∈ ys, ∃ x ∈ xs, U v x y) (collectP f i xs) w := by
  have key : ∀ xs, (∀ j, ∀ x ∈ xs, ∀ u, Later C S w u →
      wp C S (fun ys v => (∀ y, L x y → y ∈ ys) ∧ ∀ y ∈ ys, U v x y) (f j x) u) → ∀ i u, Later C S w u →
      wp C S (fun ys v => (∀ y, (∃ x ∈ xs, L x y) → y ∈ ys) ∧ ∀ y ∈ ys, ∃ x ∈ xs, U v x y) (collectP f i xs) u := by
    intro xs
    induction xs with
    | nil => intro _ i u _; exact wp.ret fun v _ => ⟨(by rintro y ⟨x, hx, _⟩; cases hx), by simp⟩
    | cons x xs ih =>
      intro hf i u hu
      rw [collectP]
      refine wp.bind hu.good (hf i x (by simp) u hu) fun ys v hv ⟨a1, a2⟩ => ?_
      refine wp.bind hv.good (ih (fun j y hy => hf j y (by simp [hy])) (i + 1) v (hu.trans hv)) fun zs z hz ⟨b1, b2⟩ => ?_
      refine wp.ret fun z' hz' => ⟨?_, ?_⟩
      · rintro y ⟨x', hx', h⟩
        rcases List.mem_cons.1 hx' with rfl | hx'
        · exact List.mem_append_left _ (a1 y h)
        · exact List.mem_append_right _ (b1 y ⟨x', hx', h⟩)
      · intro y hy
        rcases List.mem_append.1 hy with hy | hy
        · exact ⟨x, by simp, stable _ _ _ _ hv.good (hz.trans hz') (a2 y hy)⟩
        · obtain ⟨x', hx', h⟩ := b2 y hy
          exact ⟨x', by simp [hx'], stable _ _ _ _ hz.good hz' h⟩
  exact key xs hf i w (.refl g)

theorem anyP_wp {α : Type} {f : Nat → α → Prog Bool} {L : α → Prop} {U : Mgr → α → Prop} {xs : List α} {i : Nat}
    (g : Good C S w) (stable : ∀ v u x, Good C S v → Later C S v u → U v x → U u x)
    (hf : ∀ j, ∀ x ∈ xs, ∀ u, Later C S w u → wp C S (fun b v => (b = true → U v x) ∧ (L x → b = true)) (f j x) u) :
    wp C S (fun b v => (b = true → ∃ x ∈ xs, U v x) ∧ ((∃ x ∈ xs, L x) → b = true)) (anyP f i xs) w := by
  have key : ∀ xs, (∀ j, ∀ x ∈ xs, ∀ u, Later C S w u → wp C S (fun b v => (b = true → U v x) ∧ (L x → b = true)) (f j x) u) →
      ∀ i u, Later C S w u → wp C S (fun b v => (b = true → ∃ x ∈ xs, U v x) ∧ ((∃ x ∈ xs, L x) → b = true)) (anyP f i xs) u := by
    intro xs
    induction xs with
    | nil => intro _ i u _; exact wp.ret fun v _ => ⟨nofun, (by rintro ⟨x, hx, _⟩; cases hx)⟩
    | cons x xs ih =>
      intro hf i u hu
      rw [anyP]
      refine wp.bind hu.good (hf i x (by simp) u hu) fun b v hv ⟨a1, a2⟩ => ?_
      cases b with
      | true => exact wp.ret fun z hz => ⟨fun _ => ⟨x, by simp, stable _ _ _ hv.good hz (a1 rfl)⟩, fun _ => rfl⟩
      | false =>
        refine (ih (fun j y hy => hf j y (by simp [hy])) (i + 1) v (hu.trans hv)).mono fun b z hz ⟨b1, b2⟩ => ⟨?_, ?_⟩
        · intro hb
          obtain ⟨y, hy, h⟩ := b1 hb
          exact ⟨y, by simp [hy], h⟩
        · rintro ⟨y, hy, h⟩
          rcases List.mem_cons.1 hy with rfl | hy
          · exact absurd (a2 h) (by simp)
          · exact b2 ⟨y, hy, h⟩
  exact key xs hf i w (.refl g)

/-! ## Roles -/

theorem descRolesP_wp {o : Ord} {n : Nat} {site : List Val} {r : Nat} (g : Good C S w) :
    wp C S (fun ds v => (∀ d, Desc w.heap r d → d ∈ ds) ∧ ∀ d ∈ ds, Desc v.heap r d) (descRolesP o n site r) w := by
  induction n generalizing site r w with
  | zero => trivial
  | succ n ih =>
    rw [descRolesP]
    refine wp.rd fun v hv => ?_
    cases hr : v.heap.roles[r]? with
    | none => trivial
    | some ro =>
      refine (collectP_wp (L := fun (e : Str × Nat) y => y = e.2 ∨ Desc v.heap e.2 y)
        (U := fun z (e : Str × Nat) y => y = e.2 ∨ Desc z.heap e.2 y) hv.good ?_ ?_).mono ?_
      · rintro a b e y ga hab (h | h)
        · exact .inl h
        · exact .inr (hab.heap.desc ga.inv.heap h)
      · intro j e _ u hu
        refine wp.bind hu.good (ih hu.good) fun ds z hz ⟨a1, a2⟩ => wp.ret fun z' hz' => ⟨?_, ?_⟩
        · rintro y (h | h)
          · simp [h]
          · exact List.mem_cons_of_mem _ (a1 y (hu.heap.desc hv.good.inv.heap h))
        · intro y hy
          rcases List.mem_cons.1 hy with h | h
          · exact .inl h
          · exact .inr (hz'.heap.desc hz.good.inv.heap (a2 y h))
      · rintro ds z hz ⟨a1, a2⟩
        constructor
        · intro d hd
          have hd := hv.heap.desc g.inv.heap hd
          cases hd with
          | child hc =>
            obtain ⟨ro', k, h1, h2⟩ := hc
            rw [hr] at h1; cases h1
            exact a1 d ⟨(k, d), Ord.mem_ord.2 h2, .inl rfl⟩
          | step hc h =>
            obtain ⟨ro', k, h1, h2⟩ := hc
            rw [hr] at h1; cases h1
            exact a1 d ⟨(k, _), Ord.mem_ord.2 h2, .inr h⟩
        · intro d hd
          obtain ⟨e, he, h⟩ := a2 d hd
          have hc : Child z.heap r e.2 := hz.heap.child hv.good.inv.heap ⟨ro, e.1, hr, Ord.mem_ord.1 he⟩
          rcases h with h | h
          · rw [h]; exact .child hc
          · exact .step hc h

theorem groupOf_of {z : Mgr} {r ga : Nat} {group : Str} {ro : RoleObj} {go : GroupObj} (h : Later C S v z)
    (hr : v.heap.roles[r]? = some ro) (hg : ro.perms.get group = some ga) (hgo : z.heap.groups[ga]? = some go) :
    GroupOf z.heap r group go := by
  obtain ⟨ro', e1, _, _, e4⟩ := h.heap.roles r ro hr
  exact ⟨ro', ga, e1, GoMap.get_some_mem (e4 _ _ hg), hgo⟩

theorem hasP_wp {o : Ord} {group name : Str} {n : Nat} {site : List Val} {r : Nat} (g : Good C S w) :
    wp C S (fun b v => (b = true → Granted v.heap [] group name r) ∧ (Granted w.heap [] group name r → b = true))
      (hasP o group name [] n site r) w := by
  induction n generalizing site r w with
  | zero => trivial
  | succ n ih =>
    rw [hasP]
    refine wp.rd fun v1 l1 => ?_
    cases hr : v1.heap.roles[r]? with
    | none => trivial
    | some ro =>
      simp only [Option.map_some]
      cases hg : ro.perms.get group with
      | none =>
        refine wp.ret fun z _ => ⟨nofun, fun hg' => ?_⟩
        obtain ⟨go, hgo⟩ := (l1.heap.granted g.inv.heap hg').1
        obtain ⟨ga, h1, _⟩ := (RHeap.groupOf_get l1.good.inv.heap hr).1 hgo
        rw [hg] at h1; cases h1
      | some ga =>
        refine wp.rd fun v2 l2 => ?_
        cases hg2 : v2.heap.groups[ga]? with
        | none => trivial
        | some g2 =>
          simp only [Option.map_some]
          cases hl : (g2.perms.get name).isSome with
          | true =>
            refine wp.ret fun z lz => ⟨fun _ => ?_, fun _ => rfl⟩
            have hgo := groupOf_of l2 hr hg hg2
            obtain ⟨a, ha⟩ := Option.isSome_iff_exists.1 hl
            exact lz.heap.granted l2.good.inv.heap ⟨⟨g2, hgo⟩, .inl ⟨g2, hgo, name, a, GoMap.get_some_mem ha, .inl rfl⟩⟩
          | false =>
            refine wp.rd fun v3 l3 => ?_
            cases hg3 : v3.heap.groups[ga]? with
            | none => trivial
            | some g3 =>
              refine wp.local_ fun matched hm => ?_
              have hgo := groupOf_of (l2.trans l3) hr hg hg3
              have sm := Out.anyI_spec (P := fun (e : Str × Attr) => Matches e.1 name)
                (fun j e _ c hc => RHeap.matchResource_spec hc) hm
              cases matched with
              | true =>
                refine wp.ret fun z lz => ⟨fun _ => ?_, fun _ => rfl⟩
                obtain ⟨⟨k, a⟩, he, hk⟩ := sm.1 rfl
                exact lz.heap.granted l3.good.inv.heap ⟨⟨g3, hgo⟩, .inl ⟨g3, hgo, k, a, Ord.mem_ord.1 he, .inr hk⟩⟩
              | false =>
                have hown : ¬ OwnGrant w.heap r group name := by
                  rintro ⟨go, ⟨ro0, ga0, h1, h2, h3⟩, k, a, h4, h5⟩
                  obtain ⟨ro', e1, _, _, e4⟩ := l1.heap.roles r ro0 h1
                  rw [hr] at e1; cases e1
                  have := e4 group ga0 ((GoMap.mem_iff_get (g.inv.heap.permsWF ro0 (List.mem_of_getElem? h1))).1 h2)
                  rw [hg] at this; cases this
                  have hk : (go.perms.get k).isSome := GoMap.get_isSome_iff.2 (List.mem_map_of_mem (f := (·.1)) h4)
                  rcases h5 with rfl | h5
                  · obtain ⟨x, f1, _, f2⟩ := (l1.trans l2).heap.groups ga go h3
                    rw [hg2] at f1; cases f1
                    rw [f2 k hk] at hl; cases hl
                  · obtain ⟨x, f1, _, f2⟩ := ((l1.trans l2).trans l3).heap.groups ga go h3
                    rw [hg3] at f1; cases f1
                    obtain ⟨a', ha'⟩ := Option.isSome_iff_exists.1 (f2 k hk)
                    exact absurd (sm.2 ⟨(k, a'), Ord.mem_ord.2 (GoMap.get_some_mem ha'), h5⟩) (by simp)
                simp only [Bool.false_eq_true, if_false]
                refine wp.bind l3.good (descRolesP_wp l3.good) fun ds v4 l4 ⟨d1, d2⟩ => ?_
                refine (anyP_wp (L := fun d => Granted v4.heap [] group name d)
                  (U := fun z d => Granted z.heap [] group name d) l4.good ?_ ?_).mono ?_
                · intro a b d ga' hab h
                  exact hab.heap.granted ga'.inv.heap h
                · intro j d _ u lu
                  refine wp.rd fun u' lu' => ?_
                  cases hd : u'.heap.roles[d]? with
                  | none => trivial
                  | some dr =>
                    simp only [Option.map_some, List.length_nil, Nat.lt_irrefl, if_false]
                    exact (ih lu'.good).mono fun b z lz ⟨a1, a2⟩ =>
                      ⟨a1, fun h => a2 ((lu.trans lu').heap.granted l4.good.inv.heap h)⟩
                · rintro b z lz ⟨a1, a2⟩
                  constructor
                  · intro hb
                    obtain ⟨d, hd, hgd⟩ := a1 hb
                    obtain ⟨g', hg', _⟩ := (l4.trans lz).heap.groupOf l3.good.inv.heap hgo
                    have hrd : Desc z.heap r d := lz.heap.desc l4.good.inv.heap (d2 d hd)
                    refine ⟨⟨g', hg'⟩, .inr ?_⟩
                    rcases hgd.2 with ho | ⟨d', dr', k1, k2, k3, k4⟩
                    · obtain ⟨_, dr, _, e, _⟩ := hgd.1
                      exact ⟨d, dr, hrd, e, .inl rfl, ho⟩
                    · exact ⟨d', dr', RHeap.desc_trans hrd k1, k2, k3, k4⟩
                  · rintro ⟨_, ho | ⟨d, dr, k1, k2, k3, k4⟩⟩
                    · exact absurd ho hown
                    · have l : Later C S w v3 := (l1.trans l2).trans l3
                      refine a2 ⟨d, d1 d (l.heap.desc g.inv.heap k1), (l.trans l4).heap.granted g.inv.heap ⟨?_, .inl k4⟩⟩
                      obtain ⟨g', hg', _⟩ := k4
                      exact ⟨g', hg'⟩

/-! ## Tenants of the principal -/

theorem Later.under (h : Later C S w v) {a x : Str} (hu : Under w a x) : Under v a x :=
  h.tobjs.under (fun k c hk => h.reg .tenant k c hk) hu

theorem descendantsP_wp {o : Ord} {n : Nat} {site : List Val} {c : Nat} (g : Good C S w) :
    wp C S (fun ds v => ∀ x ∈ ds, BelowObj v.tobjs c x) (descendantsP o n site c) w := by
  induction n generalizing site c w with
  | zero => trivial
  | succ n ih =>
    rw [descendantsP]
    refine wp.rd fun v hv => ?_
    cases hr : v.tobjs[c]? with
    | none => trivial
    | some t =>
      refine (collectP_wp (L := fun _ _ => False)
        (U := fun z (e : Str × Nat) y => y = e.1 ∨ BelowObj z.tobjs e.2 y) hv.good ?_ ?_).mono ?_
      · rintro a b e y _ hab (h | h)
        · exact .inl h
        · exact .inr (hab.tobjs.below h)
      · intro j e _ u hu
        refine wp.bind hu.good (ih hu.good) fun ds z hz a2 => wp.ret fun z' hz' => ⟨nofun, ?_⟩
        intro y hy
        rcases List.mem_cons.1 hy with h | h
        · exact .inl h
        · exact .inr (hz'.tobjs.below (a2 y h))
      · rintro ds z hz ⟨_, a2⟩ x hx
        obtain ⟨e, he, h⟩ := a2 x hx
        have he := Ord.mem_ord.1 he
        obtain ⟨t', b1, _, _, b4⟩ := hz.tobjs c t hr
        have hc : TChild z.tobjs c e.2 := ⟨t', e.1, b1, b4 _ he⟩
        rcases h with rfl | ⟨d, dt, h1, h2, h3⟩
        · obtain ⟨d, h1, h2⟩ := hz.good.inv.desc t' (List.mem_of_getElem? b1) e (b4 _ he)
          exact ⟨e.2, d, .child hc, h1, h2⟩
        · exact ⟨d, dt, .step hc h1, h2, h3⟩

/-- Replacing a cached subtree. -/
theorem later_hier (g : Good C S w) {id : Str} {l : List Val} (hl : ∀ v ∈ l, ∃ x, v = .str x ∧ Under w id x) :
    Later C S w { w with hierarchy := w.hierarchy.set id l } := by
  refine ⟨⟨{ g.inv with hier := ?_, pc := ?_ }, g.cached, g.own⟩, fun k => by cases k <;> exact fun _ _ h => h, .refl _, .of_eq rfl,
    fun _ h => h, fun _ h => h⟩
  · intro a l' h v hv
    simp only [GoMap.get_set] at h
    split at h
    · rename_i e; subst e; cases h
      obtain ⟨x, e, hu⟩ := hl v hv
      exact ⟨x, e, Mgr.under_hier.2 hu⟩
    · obtain ⟨x, e, hu⟩ := g.inv.hier a l' h v hv
      exact ⟨x, e, Mgr.under_hier.2 hu⟩
  · intro p I hp x hx
    obtain ⟨row, hr, h1, t, h2, h3⟩ := g.inv.pc p I hp x hx
    exact ⟨row, hr, h1, t, h2, h3.imp (fun h => h) fun h => ⟨h.1, Mgr.under_hier.2 h.2⟩⟩

theorem tenantChildrenP_wp {o : Ord} {fuel : Nat} {site : List Val} {id : Str} :
    wp C S (fun l v => ∀ x ∈ l, ∃ s, x = .str s ∧ Under v id s) (tenantChildrenP o fuel site id) w := by
  rw [tenantChildrenP]
  refine wp.rd fun v1 l1 => ?_
  cases hh : v1.hierarchy.get id with
  | some hier =>
    refine wp.ret fun z lz x hx => ?_
    obtain ⟨s, e, hu⟩ := l1.good.inv.hier id hier hh x hx
    exact ⟨s, e, lz.under hu⟩
  | none =>
    refine wp.rd fun v2 l2 => ?_
    cases ht : v2.tenants.get id with
    | none => exact wp.ret fun z lz x hx => nomatch hx
    | some c =>
      refine wp.bind l2.good (descendantsP_wp l2.good) fun ds v3 l3 hds => ?_
      intro v4 l4
      have hu : ∀ x ∈ ds, Under v4 id x := fun x hx =>
        ⟨c, l4.reg .tenant _ _ (l3.reg .tenant _ _ ht), l4.tobjs.below (hds x hx)⟩
      have hl := later_hier l4.good (id := id) (l := compact (ds.map Val.str)) (by
        intro v hv
        have hv := ((C12_compact _).2.1 v).1 hv
        obtain ⟨x, hx, rfl⟩ := List.mem_map.1 hv
        exact ⟨x, rfl, hu x hx⟩)
      refine ⟨hl, wp.ret fun z lz x hx => ?_⟩
      obtain ⟨y, hy, rfl⟩ := List.mem_map.1 hx
      exact ⟨y, rfl, (hl.trans lz).under (hu y hy)⟩

/-- `x` is a tenant in which `p` was given something, or lies under one in which `p` manages the descendants. -/
def Entitled (w : Mgr) (p x : Str) : Prop :=
  ∃ row ∈ w.log, row.principal = .str p ∧ ∃ t, row.tenant = .str t ∧ (x = t ∨ (row.manage = .bool true ∧ Under w t x))

theorem Entitled.later {p x : Str} (h : Later C S w v) (he : Entitled w p x) : Entitled v p x := by
  obtain ⟨row, h1, h2, t, h3, h4⟩ := he
  exact ⟨row, h.log row h1, h2, t, h3, h4.imp id fun k => ⟨k.1, h.under k.2⟩⟩

theorem implicitLoopP_wp {o : Ord} {fuel : Nat} {site : List Val} {p : Str} {rows : List Data} {i : Nat} {E : List Str} (g : Good C S w)
    (hrows : ∀ row ∈ rows, row ∈ w.log ∧ row.principal = .str p) (hE : ∀ x ∈ E, Entitled w p x) :
    wp C S (fun E' v => (∀ x ∈ E, x ∈ E') ∧ (∀ row ∈ rows, ∀ t, row.tenant = .str t → t ∈ E') ∧ ∀ x ∈ E', Entitled v p x)
      (implicitLoopP o fuel site i rows E) w := by
  induction rows generalizing i E w with
  | nil => exact wp.ret fun v hv => ⟨fun _ h => h, by simp, fun x hx => (hE x hx).later hv⟩
  | cons row rows ih =>
    obtain ⟨hr1, hr2⟩ := hrows row (by simp)
    have hrest : ∀ r ∈ rows, r ∈ w.log ∧ r.principal = .str p := fun r hr => hrows r (by simp [hr])
    rw [implicitLoopP]
    split
    · rename_i t ht
      have hrow : ∀ {E' : List Str} {r : Data}, t ∈ E' → (∀ r ∈ rows, ∀ t, r.tenant = .str t → t ∈ E') → r ∈ row :: rows →
          ∀ t, r.tenant = .str t → t ∈ E' := by
        intro E' r h1 h2 hr t' ht'
        rcases List.mem_cons.1 hr with rfl | hr
        · rw [ht] at ht'; cases ht'; exact h1
        · exact h2 r hr t' ht'
      have ent : Entitled w p t := ⟨row, hr1, hr2, t, ht, .inl rfl⟩
      split
      · rename_i hin
        exact (ih g hrest hE).mono fun E' v _ ⟨a1, a2, a3⟩ => ⟨a1, fun r hr => hrow (a1 t hin) a2 hr, a3⟩
      · split
        · rename_i hm
          refine wp.bind g tenantChildrenP_wp fun l v hv hl => wp.local_ fun E1 h1 => ?_
          have d := Mgr.addDescs_spec (fun v hv => (hl v hv).imp fun x h => h.1) h1
          refine (ih hv.good (fun r hr => ⟨hv.log r (hrest r hr).1, (hrest r hr).2⟩) ?_).mono fun E' z _ ⟨a1, a2, a3⟩ =>
            ⟨fun x hx => a1 x ((d x).2 (.inl (by simp [hx]))), fun r hr => hrow (a1 t ((d t).2 (.inl (by simp)))) a2 hr, a3⟩
          intro x hx
          rcases (d x).1 hx with hx | hx
          · rcases List.mem_append.1 hx with hx | hx
            · exact (hE x hx).later hv
            · rw [List.mem_singleton.1 hx]; exact ent.later hv
          · obtain ⟨y, e, hy⟩ := hl _ hx
            cases e
            exact ⟨row, hv.log row hr1, hr2, t, ht, .inr ⟨hm, hy⟩⟩
        · refine (ih (E := E ++ [t]) g hrest ?_).mono fun E' v _ ⟨a1, a2, a3⟩ =>
            ⟨fun x hx => a1 x (by simp [hx]), fun r hr => hrow (a1 t (by simp)) a2 hr, a3⟩
          intro x hx
          rcases List.mem_append.1 hx with hx | hx
          · exact hE x hx
          · rw [List.mem_singleton.1 hx]; exact ent
    · trivial

/-- Caching the tenants of a principal. -/
theorem later_pc (g : Good C S w) {p : Str} {I : List Str} (hc : C.get p = none) (hS : ∀ t, S p t → t ∈ I)
    (hI : ∀ x ∈ I, Entitled w p x) : Later C S w { w with pcache := w.pcache.set p I } := by
  have hu : ∀ {a x : Str}, Under w a x → Under { w with pcache := w.pcache.set p I } a x :=
    fun h => (Mgr.TExt.of_eq (w := w) (w' := { w with pcache := w.pcache.set p I }) rfl).under (fun _ _ h => h) h
  refine ⟨⟨{ g.inv with hier := ?_, pc := ?_ }, ?_, ?_⟩, fun k => by cases k <;> exact fun _ _ h => h, .refl _, .of_eq rfl,
    fun _ h => h, fun _ h => h⟩
  · intro a l h v hv
    obtain ⟨x, e, h⟩ := g.inv.hier a l h v hv
    exact ⟨x, e, hu h⟩
  · intro q J hq x hx
    simp only [GoMap.get_set] at hq
    split at hq
    · rename_i e; subst e; cases hq
      obtain ⟨row, h1, h2, t, h3, h4⟩ := hI x hx
      exact ⟨row, h1, h2, t, h3, h4.imp id fun k => ⟨k.1, hu k.2⟩⟩
    · obtain ⟨row, h1, h2, t, h3, h4⟩ := g.inv.pc q J hq x hx
      exact ⟨row, h1, h2, t, h3, h4.imp id fun k => ⟨k.1, hu k.2⟩⟩
  · intro q J hq
    simp only [GoMap.get_set]
    split
    · rename_i e; subst e; rw [hc] at hq; cases hq
    · exact g.cached q J hq
  · intro q t hq
    refine ⟨(g.own q t hq).1, fun J hJ => ?_⟩
    simp only [GoMap.get_set] at hJ
    split at hJ
    · rename_i e; subst e; cases hJ; exact hS t hq
    · exact (g.own q t hq).2 J hJ

theorem implicitTenantsP_wp {o : Ord} {fuel : Nat} {site : List Val} {p : Str} :
    wp C S (fun I v => (∀ J, C.get p = some J → I = J) ∧ (∀ t, S p t → t ∈ I) ∧ ∀ x ∈ I, Entitled v p x)
      (implicitTenantsP o fuel site p) w := by
  rw [implicitTenantsP]
  refine wp.rd fun v1 l1 => ?_
  cases hc : v1.pcache.get p with
  | some I =>
    refine wp.ret fun z lz => ⟨fun J hJ => ?_, fun t ht => (l1.good.own p t ht).2 I hc,
      fun x hx => Entitled.later lz (l1.good.inv.pc p I hc x hx)⟩
    have := l1.good.cached p J hJ
    rw [hc] at this; cases this; rfl
  | none =>
    have hC : C.get p = none := by
      cases h : C.get p with
      | none => rfl
      | some J => have := l1.good.cached p J h; rw [hc] at this; cases this
    refine wp.bind l1.good (searchP_wp l1.good) fun M v2 l2 ⟨m1, m2⟩ => ?_
    have hf : ∀ row : Data, filterTenantsByPrincipal { principal := .str p } row = true ↔ row.principal = .str p ∧ row.tenant ≠ .nil := by
      intro row
      simp only [filterTenantsByPrincipal, Bool.and_eq_true, Mgr.matchPrincipal_iff, Bool.not_eq_true', isNil, decide_eq_false_iff_not]
      constructor
      · rintro ⟨⟨_, b⟩, c⟩; exact ⟨b, c⟩
      · rintro ⟨b, c⟩; exact ⟨⟨by rw [b]; simp, b⟩, c⟩
    refine wp.bind l2.good (implicitLoopP_wp (p := p) l2.good
      (fun row hr => ⟨Mgr.stored_log (m2 row hr).1, ((hf row).1 (m2 row hr).2).1⟩) (by simp)) fun E v3 l3 ⟨_, e2, e3⟩ => ?_
    have hS : ∀ t, S p t → t ∈ E := by
      intro t ht
      obtain ⟨row, h1, h2, h3⟩ := (l1.good.own p t ht).1
      exact e2 row (m1 row h1 ((hf row).2 ⟨h2, by rw [h3]; simp⟩)) t h3
    intro v4 l4
    have hl := later_pc l4.good hC hS fun x hx => (e3 x hx).later l4
    refine ⟨hl, wp.ret fun z lz => ⟨fun J hJ => ?_, hS, fun x hx => (e3 x hx).later ((l4.trans hl).trans lz)⟩⟩
    rw [hC] at hJ; cases hJ

/-! ## The decision -/

theorem Later.known (g : Good C S w) (h : Later C S w v) (k : Kind) {x : Val} (hk : Known (w.reg k) x) : Known (v.reg k) x :=
  known_mono (fun id a ha => GoMap.get_some_mem (h.reg k id a ((GoMap.mem_iff_get (g.inv.reg k)).1 ha))) hk

theorem Later.resources (g : Good C S w) (h : Later C S w v) {r : Request} (hr : Resources w r) : Resources v r :=
  ⟨h.known g .tenant hr.1, h.known g .namespace_ hr.2.1, h.known g .scope hr.2.2⟩

theorem Later.decides (g : Good C S w) (h : Later C S w v) {p : Str} {c : Val} {r : Request} (hd : Decides w p c r) : Decides v p c r :=
  decides_mono h.rows (fun k a ha => GoMap.get_some_mem (h.reg .role k a ((GoMap.mem_iff_get g.inv.regR).1 ha))) g.inv.heap h.heap hd

theorem validOneP_wp (k : Kind) {x : Val} (g : Good C S w) :
    wp C S (fun b v => (b = true → Known (v.reg k) x) ∧ (Known (w.reg k) x → b = true)) (validOneP (fun w => w.reg k) x) w := by
  unfold validOneP
  split
  · exact wp.ret fun v _ => ⟨fun _ => .inl rfl, fun _ => rfl⟩
  · rename_i s
    refine wp.rd fun v hv => wp.ret fun z hz => ⟨fun hb => ?_, fun hk => ?_⟩
    · obtain ⟨a, ha⟩ := Option.isSome_iff_exists.1 hb
      exact .inr ⟨s, a, rfl, GoMap.get_some_mem (hz.reg k s a ha)⟩
    · rcases hk with hk | ⟨s', a, e, ha⟩
      · cases hk
      · cases e
        rw [hv.reg k s a ((GoMap.mem_iff_get (g.inv.reg k)).1 ha)]; rfl
  · trivial

theorem validateP_wp {r : Request} (g : Good C S w) :
    wp C S (fun b v => (b = true → Resources v r) ∧ (Resources w r → b = true)) (validateP r) w := by
  rw [validateP]
  refine wp.bind g (validOneP_wp .tenant g) fun a v1 l1 ⟨a1, a2⟩ => ?_
  cases a with
  | false => exact wp.ret fun z _ => ⟨nofun, fun h => a2 h.1⟩
  | true =>
    refine wp.bind l1.good (validOneP_wp .namespace_ l1.good) fun b v2 l2 ⟨b1, b2⟩ => ?_
    cases b with
    | false => exact wp.ret fun z _ => ⟨nofun, fun h => b2 (l1.known g .namespace_ h.2.1)⟩
    | true =>
      refine (validOneP_wp .scope l2.good).mono fun c z lz ⟨c1, c2⟩ =>
        ⟨fun hc => ⟨(l2.trans lz).known l1.good .tenant (a1 rfl), lz.known l2.good .namespace_ (b1 rfl), c1 hc⟩,
          fun h => c2 ((l1.trans l2).known g .scope h.2.2)⟩

theorem tenantsByPrincipalP_wp {o : Ord} {fuel : Nat} {site : List Val} {p : Str} (g : Good C S w) :
    wp C S (fun ts v => (∀ row, Stored w row → row.principal = .str p → row.tenant ≠ .nil → row.tenant ∈ ts) ∧
      ∀ t ∈ ts, ∃ row, Stored v row ∧ row.principal = .str p ∧ row.tenant ≠ .nil ∧ row.tenant = t)
      (tenantsByPrincipalP o fuel site (.str p)) w := by
  rw [tenantsByPrincipalP]
  refine wp.bind g (searchP_wp g) fun M v hv ⟨m1, m2⟩ => wp.ret fun z hz => ⟨fun row h1 h2 h3 => ?_, fun t ht => ?_⟩
  · refine ((C12_compact _).2.1 _).2 (List.mem_map.2 ⟨row, m1 row h1 ?_, rfl⟩)
    simp only [filterTenantsByPrincipal, Bool.and_eq_true, Mgr.matchPrincipal_iff, Bool.not_eq_true', isNil, decide_eq_false_iff_not]
    exact ⟨⟨by rw [h2]; simp, h2⟩, h3⟩
  · obtain ⟨row, hr, e⟩ := List.mem_map.1 (((C12_compact _).2.1 t).1 ht)
    obtain ⟨h1, h2⟩ := m2 row hr
    simp only [filterTenantsByPrincipal, Bool.and_eq_true, Mgr.matchPrincipal_iff, Bool.not_eq_true', isNil, decide_eq_false_iff_not] at h2
    exact ⟨row, hz.rows row h1, h2.1.2, h2.2, e⟩

theorem concatP_wp {α : Type} {f : Nat → α → Prog (List Data)} {P : α → Data → Prop} {xs : List α} {i : Nat} (g : Good C S w)
    (hf : ∀ j, ∀ x ∈ xs, ∀ u, Good C S u → wp C S (fun M v => Between u v (P x) M) (f j x) u) :
    wp C S (fun M v => Between w v (fun d => ∃ x ∈ xs, P x d) M) (concatP f i xs) w := by
  induction xs generalizing i w with
  | nil => exact wp.ret fun v _ => ⟨by simp, by simp⟩
  | cons x xs ih =>
    rw [concatP]
    refine wp.bind g (hf i x (by simp) w g) fun a v hv ⟨a1, a2⟩ => ?_
    refine wp.bind hv.good (ih hv.good fun j y hy => hf j y (by simp [hy])) fun b z hz ⟨b1, b2⟩ => ?_
    refine wp.ret fun z' hz' => ⟨?_, ?_⟩
    · rintro d h1 ⟨y, hy, h2⟩
      rcases List.mem_cons.1 hy with rfl | hy
      · exact List.mem_append_left _ (a1 d h1 h2)
      · exact List.mem_append_right _ (b1 d (hv.rows d h1) ⟨y, hy, h2⟩)
    · intro d hd
      rcases List.mem_append.1 hd with hd | hd
      · exact ⟨(hz.trans hz').rows d (a2 d hd).1, x, by simp, (a2 d hd).2⟩
      · obtain ⟨h1, y, hy, h2⟩ := b2 d hd
        exact ⟨hz'.rows d h1, y, by simp [hy], h2⟩

theorem checkNoActivityP_wp {o : Ord} {fuel : Nat} {site : List Val} {p : Str} {r : Request} {c : Val} (g : Good C S w)
    (hc : c ≠ .nil ∨ r.tenant = .nil) :
    wp C S (fun b v => (b = true → Grants v p c r) ∧ (Grants w p c r → b = true))
      (checkNoActivityP o fuel site p { r with tenant := c } (flagsOf r)) w := by
  have hnil : ∀ {s : Str}, Val.str s ≠ Val.nil := by intro s h; cases h
  have ids : ∀ {field : Data → Val} {l : List Data} {x : Val}, contains x (getIDs field [] [] l) = true ↔ ∃ d ∈ l, field d = x := by
    intro field l x
    rw [Mgr.contains_iff, Mgr.mem_getIDs (by simp)]; simp
  unfold checkNoActivityP flagsOf Grants
  by_cases ht : r.tenant = .nil
  · by_cases hn : r.namespace_ = .nil
    · simp only [ht, hn, ne_eq, not_true, not_false_iff, decide_true, decide_false, Bool.false_and, Bool.and_false, Bool.and_self,
        Bool.false_eq_true, if_false, false_and, true_and, and_false, or_false, or_self]
      exact wp.ret fun _ _ => ⟨nofun, nofun⟩
    · by_cases hs : r.scope = .nil
      · simp only [ht, hn, hs, ne_eq, not_true, not_false_iff, decide_true, decide_false, Bool.false_and, Bool.and_false, Bool.and_self,
          Bool.false_eq_true, if_false, false_and, true_and, and_false, or_false, or_self]
        exact wp.ret fun _ _ => ⟨nofun, nofun⟩
      · simp only [ht, hn, hs, ne_eq, not_true, not_false_iff, decide_true, decide_false, Bool.false_and,
          Bool.and_self, Bool.and_false, Bool.false_eq_true, if_false, if_true, false_and, true_and, false_or]
        refine wp.bind g (tenantsByPrincipalP_wp g) fun ts v1 l1 ⟨t1, t2⟩ => ?_
        refine wp.bind l1.good (concatP_wp (P := fun t d => filterScopeForPrincipalByTenantAndNamespace
          { principal := .str p, tenant := t, namespace_ := r.namespace_ } d = true) l1.good
          fun j x _ u gu => searchP_wp gu) fun M v2 l2 ⟨m1, m2⟩ => wp.ret fun z lz => ?_
        rw [ids]
        constructor
        · rintro ⟨d, hd, e⟩
          obtain ⟨b1, t, ht', b2⟩ := m2 d hd
          obtain ⟨own, a1, a3, a4, rfl⟩ := t2 t ht'
          obtain ⟨c1, c2⟩ := (Mgr.filterTNS_iff a4).1 b2
          rw [e] at c2
          exact ⟨own, d, (l2.trans lz).rows own a1, a3, a4, lz.rows d b1, c2⟩
        · rintro ⟨own, d, a1, a3, a4, b1, c2⟩
          have hsc : d.scope = r.scope := c2.2.1
          refine ⟨d, m1 d (l1.rows d b1) ⟨own.tenant, t1 own a1 a3 a4, ?_⟩, hsc⟩
          refine (Mgr.filterTNS_iff a4).2 ⟨by rw [hsc]; exact hs, ?_⟩
          rw [hsc]; exact c2
  · have hc : c ≠ .nil := hc.resolve_right ht
    by_cases hn : r.namespace_ = .nil
    · by_cases hs : r.scope = .nil
      · simp only [ht, hn, hs, ne_eq, not_true, not_false_iff, decide_true, decide_false, Bool.false_and,
          Bool.and_self, Bool.and_false, Bool.false_eq_true, if_false, if_true, false_and, true_and, and_false,
          or_false]
        refine wp.bind g (tenantsByPrincipalP_wp g) fun ts v1 l1 ⟨t1, t2⟩ => wp.ret fun z lz => ?_
        rw [Mgr.contains_iff]
        constructor
        · intro h
          obtain ⟨row, a1, a2, _, a3⟩ := t2 c h
          exact ⟨row, lz.rows row a1, a2, a3⟩
        · rintro ⟨row, a1, a2, a3⟩
          exact a3 ▸ t1 row a1 a2 (by rw [a3]; exact hc)
      · simp only [ht, hn, hs, ne_eq, not_true, not_false_iff, decide_true, decide_false, Bool.false_and,
          Bool.and_self, Bool.and_false, Bool.false_eq_true, if_false, if_true, false_and, true_and, and_false,
          or_false, false_or]
        refine wp.bind g (searchP_wp g) fun M v1 l1 ⟨m1, m2⟩ => wp.ret fun z lz => ?_
        rw [ids]
        simp only [Mgr.filterTS_iff hc] at m1 m2
        constructor
        · rintro ⟨d, hd, e⟩
          obtain ⟨a1, a2, a3, a4⟩ := m2 d hd
          exact ⟨d, lz.rows d a1, a4, a3, e⟩
        · rintro ⟨d, a1, a4, a3, a5⟩
          exact ⟨d, m1 d a1 ⟨by rw [a5]; exact hs, a3, a4⟩, a5⟩
    · by_cases hs : r.scope = .nil
      · simp only [ht, hn, hs, ne_eq, not_true, not_false_iff, decide_true, decide_false, Bool.false_and,
          Bool.and_self, Bool.and_false, Bool.false_eq_true, if_false, if_true, false_and, true_and, and_false,
          or_false, false_or]
        refine wp.bind g (searchP_wp g) fun M v1 l1 ⟨m1, m2⟩ => wp.ret fun z lz => ?_
        rw [ids]
        simp only [Mgr.filterTN_iff hc] at m1 m2
        constructor
        · rintro ⟨d, hd, e⟩
          obtain ⟨a1, a2, a3, a4⟩ := m2 d hd
          exact ⟨d, lz.rows d a1, a4, a3, e⟩
        · rintro ⟨d, a1, a4, a3, a5⟩
          exact ⟨d, m1 d a1 ⟨by rw [a5]; exact hn, a3, a4⟩, a5⟩
      · simp only [ht, hn, hs, ne_eq, not_true, not_false_iff, decide_true, decide_false, Bool.false_and,
          Bool.and_self, Bool.and_false, Bool.false_eq_true, if_false, if_true, false_and, true_and, and_false,
          or_false, false_or]
        refine wp.bind g (searchP_wp g) fun M v1 l1 ⟨m1, m2⟩ => wp.ret fun z lz => ?_
        rw [ids]
        simp only [Mgr.filterTNS_iff hc] at m1 m2
        constructor
        · rintro ⟨d, hd, e⟩
          obtain ⟨a1, a2, a3⟩ := m2 d hd
          rw [e] at a3
          exact ⟨d, lz.rows d a1, a3⟩
        · rintro ⟨d, a1, a3⟩
          have hsc : d.scope = r.scope := a3.2.1
          exact ⟨d, m1 d a1 ⟨by rw [hsc]; exact hs, by rw [hsc]; exact a3⟩, hsc⟩

theorem rolesByTenantP_wp {o : Ord} {fuel : Nat} {site : List Val} {t : Val} (g : Good C S w) :
    wp C S (fun M _ => M = []) (rolesByTenantP o fuel site t) w := by
  refine (searchP_wp g).mono fun M v _ ⟨_, m2⟩ => List.eq_nil_iff_forall_not_mem.2 fun d hd => ?_
  have h := (m2 d hd).2
  simp only [filterRoleByTenant, Bool.and_eq_true, Mgr.matchRole_iff] at h
  exact h.2.1 h.2.2

/-- The roles found are those of rows between the beginning and the end; no role is listed as allowed. -/
def Found (R0 R1 : Data → Prop) (w v : Mgr) (x : List Str × List Str) : Prop :=
  x.2 = [] ∧ (∀ s row, Stored w row → row.role = .str s → R0 row → s ∈ x.1) ∧
    ∀ s ∈ x.1, ∃ row, Stored v row ∧ row.role = .str s ∧ R1 row

theorem collectWithP_wp {o : Ord} {fuel : Nat} {site : List Val} {t : Val} {filter : Data} {f : Data → Data → Bool} {keep : Data → Bool}
    {R : Data → Prop} (g : Good C S w)
    (hR : ∀ s row, row.role = .str s → ((f filter row = true ∧ keep row = true) ↔ R row)) :
    wp C S (fun x v => Found R R w v x) (collectWithP o fuel site t filter f keep) w := by
  rw [collectWithP]
  refine wp.bind g (rolesByTenantP_wp g) fun M v1 l1 hM => ?_
  subst hM
  refine wp.local_ fun allowed ha => ?_
  cases ha
  refine wp.bind l1.good (searchP_wp l1.good) fun M v2 l2 ⟨m1, m2⟩ => wp.local_ fun rs hrs => wp.ret fun z lz => ⟨rfl, ?_, ?_⟩
  · intro s row h1 h2 h3
    obtain ⟨a, b⟩ := (hR s row h2).2 h3
    exact (Mgr.mem_appendRoles hrs s).2 ⟨row, m1 row (l1.rows row h1) a, b, h2⟩
  · intro s hs
    obtain ⟨d, hd, k, e⟩ := (Mgr.mem_appendRoles hrs s).1 hs
    obtain ⟨a, b⟩ := m2 d hd
    exact ⟨d, lz.rows d a, e, (hR s d e).1 ⟨b, k⟩⟩

theorem collectRolesP_wp {o : Ord} {fuel : Nat} {site : List Val} {p : Str} {t : Val} (g : Good C S w) :
    wp C S (fun x _ => x = ([], [])) (collectRolesP o fuel site p t) w := by
  rw [collectRolesP]
  refine wp.bind g (rolesByTenantP_wp g) fun M v1 l1 hM => ?_
  subst hM
  refine wp.local_ fun a ha => wp.local_ fun b hb => wp.ret fun _ _ => ?_
  cases ha; cases hb; rfl

theorem collectRolesTNP_wp {o : Ord} {fuel : Nat} {site : List Val} {p : Str} {t n : Val} (g : Good C S w) (ht : t ≠ .nil) (hn : n ≠ .nil) :
    wp C S (fun x v => Found
      (fun row => row.namespace_ = n ∨ (row.namespace_ = .nil ∧ row.tenant = t ∧ row.principal = .str p))
      (fun row => row.namespace_ = n ∨ (row.namespace_ = .nil ∧ row.tenant = t ∧ row.principal = .str p)) w v x)
      (collectRolesTNP o fuel site p t n) w := by
  refine collectWithP_wp g fun s d a5 => ?_
  unfold filterRoleForPrincipalByTenantAndNamespace
  simp only [Mgr.ite_false_iff]
  simp only [isNil, Bool.or_eq_true, Bool.and_eq_true, Mgr.matchTenant_iff, Mgr.matchPrincipal_iff,
    Mgr.matchNamespace_iff, ht, decide_false, Bool.false_and, Bool.false_or, decide_eq_false_iff_not, decide_eq_true_eq]
  have hr : d.role ≠ .nil := by rw [a5]; simp
  constructor
  · rintro ⟨⟨a2, a3⟩, a4⟩
    rcases a4 with a4 | a4
    · rcases a3 with ⟨⟨_, a6⟩, _, a7⟩ | ⟨a6, _⟩
      · exact .inr ⟨a4, a6, a7⟩
      · exact absurd a4 a6
    · exact .inl a4
  · rintro (a4 | ⟨a4, a6, a7⟩)
    · exact ⟨⟨hr, .inr ⟨by rw [a4]; exact hn, a4⟩⟩, .inr a4⟩
    · exact ⟨⟨hr, .inl ⟨⟨by rw [a6]; exact ht, a6⟩, by rw [a7]; simp, a7⟩⟩, .inl a4⟩

theorem collectRolesTSP_wp {o : Ord} {fuel : Nat} {site : List Val} {p : Str} {t n : Val} (g : Good C S w) (ht : t ≠ .nil) (hn : n ≠ .nil) :
    wp C S (fun x v => Found
      (fun row => row.scope = n ∨ (row.scope = .nil ∧ row.tenant = t ∧ row.principal = .str p))
      (fun row => row.scope = n ∨ (row.scope = .nil ∧ row.tenant = t ∧ row.principal = .str p)) w v x)
      (collectRolesTSP o fuel site p t n) w := by
  refine collectWithP_wp g fun s d a5 => ?_
  unfold filterRoleForPrincipalByTenantAndScope
  simp only [Mgr.ite_false_iff]
  simp only [isNil, Bool.or_eq_true, Bool.and_eq_true, Mgr.matchTenant_iff, Mgr.matchPrincipal_iff,
    Mgr.matchScope_iff, ht, decide_false, Bool.false_and, Bool.false_or, decide_eq_false_iff_not, decide_eq_true_eq]
  have hr : d.role ≠ .nil := by rw [a5]; simp
  constructor
  · rintro ⟨⟨a2, a3⟩, a4⟩
    rcases a4 with a4 | a4
    · rcases a3 with ⟨⟨_, a6⟩, _, a7⟩ | ⟨a6, _⟩
      · exact .inr ⟨a4, a6, a7⟩
      · exact absurd a4 a6
    · exact .inl a4
  · rintro (a4 | ⟨a4, a6, a7⟩)
    · exact ⟨⟨hr, .inr ⟨by rw [a4]; exact hn, a4⟩⟩, .inr a4⟩
    · exact ⟨⟨hr, .inl ⟨⟨by rw [a6]; exact ht, a6⟩, by rw [a7]; simp, a7⟩⟩, .inl a4⟩

theorem collectRolesTNSP_wp {o : Ord} {fuel : Nat} {site : List Val} {p : Str} {t n sc : Val} (g : Good C S w) (ht : t ≠ .nil)
    (hn : n ≠ .nil) (hs : sc ≠ .nil) :
    wp C S (fun x v => Found (OwnRoleRow p t n sc) (OwnRoleRow p t n sc) w v x) (collectRolesTNSP o fuel site p t n sc) w := by
  refine collectWithP_wp g fun s d a6 => ?_
  unfold filterRoleForPrincipalByTenantNamespaceAndScope OwnRoleRow
  simp only [Mgr.ite_false_iff]
  simp only [isNil, Bool.or_eq_true, Bool.and_eq_true, Mgr.matchTenant_iff, Mgr.matchPrincipal_iff,
    Mgr.matchNamespace_iff, Mgr.matchScope_iff, ht, decide_false, Bool.false_and, Bool.false_or,
    decide_eq_false_iff_not, decide_eq_true_eq]
  have hr : d.role ≠ .nil := by rw [a6]; simp
  constructor
  · rintro ⟨⟨a2, a3⟩, a4, a5⟩
    refine ⟨?_, a4, a5, ?_⟩
    · rcases a3 with (⟨_, _, h⟩ | ⟨_, _, h⟩) | ⟨_, _, h⟩ <;> exact h
    · rcases a3 with (⟨⟨_, h⟩, _⟩ | ⟨⟨_, h⟩, _⟩) | ⟨⟨_, h⟩, _⟩
      · exact .inl h
      · exact .inr (.inl h)
      · exact .inr (.inr h)
  · rintro ⟨a7, a4, a5, a3⟩
    have hp : d.principal ≠ .nil ∧ d.principal = .str p := ⟨by rw [a7]; simp, a7⟩
    refine ⟨⟨hr, ?_⟩, a4, a5⟩
    rcases a3 with h | h | h
    · exact .inl (.inl ⟨⟨by rw [h]; exact ht, h⟩, hp⟩)
    · exact .inl (.inr ⟨⟨by rw [h]; exact hn, h⟩, hp⟩)
    · exact .inr ⟨⟨by rw [h]; exact hs, h⟩, hp⟩

theorem collectRolesNSLoopP_wp {o : Ord} {fuel : Nat} {site : List Val} {p : Str} {n sc : Val} {ts : List Data} {i : Nat} (g : Good C S w)
    (hn : n ≠ .nil) (hs : sc ≠ .nil) (hts : ∀ t ∈ ts, t.tenant ≠ .nil) :
    wp C S (fun x v => Found (fun row => ∃ t ∈ ts, OwnRoleRow p t.tenant n sc row) (fun row => ∃ t ∈ ts, OwnRoleRow p t.tenant n sc row) w v x)
      (collectRolesNSLoopP o fuel site p n sc i ts) w := by
  induction ts generalizing i w with
  | nil => exact wp.ret fun v _ => ⟨rfl, (by rintro s row _ _ ⟨t, ht, _⟩; cases ht), by simp⟩
  | cons t ts ih =>
    rw [collectRolesNSLoopP]
    refine wp.bind g (collectRolesTNSP_wp g (hts t (by simp)) hn hs) fun x v1 l1 ⟨x1, x2, x3⟩ => ?_
    refine wp.bind l1.good (ih l1.good fun t' ht' => hts t' (by simp [ht'])) fun y v2 l2 ⟨y1, y2, y3⟩ => wp.ret fun z lz => ⟨?_, ?_, ?_⟩
    · simp [x1, y1]
    · rintro s row h1 h2 ⟨t', ht', h3⟩
      rcases List.mem_cons.1 ht' with rfl | ht'
      · exact List.mem_append_left _ (x2 s row h1 h2 h3)
      · exact List.mem_append_right _ (y2 s row (l1.rows row h1) h2 ⟨t', ht', h3⟩)
    · intro s hs
      rcases List.mem_append.1 hs with hs | hs
      · obtain ⟨row, h1, h2, h3⟩ := x3 s hs
        exact ⟨row, (l2.trans lz).rows row h1, h2, t, by simp, h3⟩
      · obtain ⟨row, h1, h2, t', ht', h3⟩ := y3 s hs
        exact ⟨row, lz.rows row h1, h2, t', by simp [ht'], h3⟩

theorem collectRolesNSP_wp {o : Ord} {fuel : Nat} {site : List Val} {p : Str} {n sc : Val} (g : Good C S w) (hn : n ≠ .nil) (hs : sc ≠ .nil) :
    wp C S (fun x v => Found
      (fun row => ∃ own, Stored w own ∧ own.principal = .str p ∧ own.tenant ≠ .nil ∧ OwnRoleRow p own.tenant n sc row)
      (fun row => ∃ own, Stored v own ∧ own.principal = .str p ∧ own.tenant ≠ .nil ∧ OwnRoleRow p own.tenant n sc row) w v x)
      (collectRolesNSP o fuel site p n sc) w := by
  rw [collectRolesNSP]
  refine wp.bind g (searchP_wp g) fun M v1 l1 ⟨m1, m2⟩ => ?_
  simp only [filterTenantsByPrincipal, Bool.and_eq_true, Mgr.matchPrincipal_iff, Bool.not_eq_true', isNil, decide_eq_false_iff_not] at m1 m2
  refine (collectRolesNSLoopP_wp l1.good hn hs fun t ht => (m2 t ht).2.2).mono fun x z lz ⟨x1, x2, x3⟩ => ⟨x1, ?_, ?_⟩
  · rintro s row h1 h2 ⟨own, a1, a2, a3, a4⟩
    exact x2 s row (l1.rows row h1) h2 ⟨own, m1 own a1 ⟨⟨by rw [a2]; simp, a2⟩, a3⟩, a4⟩
  · intro s hs
    obtain ⟨row, h1, h2, t, ht, h3⟩ := x3 s hs
    obtain ⟨b1, b2⟩ := m2 t ht
    exact ⟨row, h1, h2, t, lz.rows t b1, b2.1.2, b2.2, h3⟩

/-- A registered role of the list grants the activity of the request. -/
def RoleGrants (w : Mgr) (r : Request) (roles : List Str) : Prop :=
  ∃ g act, r.group = .str g ∧ r.activity = .str act ∧ ∃ role ∈ roles, ∃ a, (role, a) ∈ w.roles ∧ Granted w.heap [] g act a

theorem RoleGrants.later (g : Good C S w) (h : Later C S w v) {r : Request} {roles : List Str} (hr : RoleGrants w r roles) : RoleGrants v r roles := by
  obtain ⟨grp, act, h1, h2, role, h3, a, h4, h5⟩ := hr
  exact ⟨grp, act, h1, h2, role, h3, a, GoMap.get_some_mem (h.reg .role role a ((GoMap.mem_iff_get g.inv.regR).1 h4)),
    h.heap.granted g.inv.heap h5⟩

theorem roleLoopP_wp {o : Ord} {fuel : Nat} {site : List Val} {r : Request} {roles : List Str} {i : Nat} (g : Good C S w) :
    wp C S (fun b v => (b = true → RoleGrants v r roles) ∧ (RoleGrants w r roles → b = true))
      (roleLoopP o fuel site r i [] roles) w := by
  induction roles generalizing i w with
  | nil => exact wp.ret fun v _ => ⟨nofun, (by rintro ⟨_, _, _, _, role, h, _⟩; cases h)⟩
  | cons role rest ih =>
    rw [roleLoopP]
    refine wp.rd fun v1 l1 => ?_
    have up : ∀ {z : Mgr}, RoleGrants z r rest → RoleGrants z r (role :: rest) := by
      rintro z ⟨grp, act, h1, h2, x, hx, h3⟩
      exact ⟨grp, act, h1, h2, x, by simp [hx], h3⟩
    cases hr : v1.roles.get role with
    | none =>
      refine (ih l1.good).mono fun b z lz ⟨a1, a2⟩ => ⟨fun hb => up (a1 hb), fun h => a2 ?_⟩
      obtain ⟨grp, act, h1, h2, x, hx, a, h3, h4⟩ := h.later g l1
      rcases List.mem_cons.1 hx with rfl | hx
      · rw [(GoMap.mem_iff_get l1.good.inv.regR).1 h3] at hr; cases hr
      · exact ⟨grp, act, h1, h2, x, hx, a, h3, h4⟩
    | some a =>
      dsimp only
      split
      · rename_i grp act hg ha
        refine wp.bind l1.good (show wp C S _ (hasP o grp act [] fuel (site ++ [.int i]) a) v1 from hasP_wp l1.good) fun b v2 l2 ⟨b1, b2⟩ => ?_
        cases b with
        | true =>
          refine wp.ret fun z lz => ⟨fun _ => RoleGrants.later l2.good lz ?_, fun _ => rfl⟩
          exact ⟨grp, act, hg, ha, role, by simp, a, GoMap.get_some_mem (l2.reg .role _ _ hr), b1 rfl⟩
        | false =>
          refine (show wp C S _ (roleLoopP o fuel site r (i + 1) [] rest) v2 from ih l2.good).mono fun b z lz ⟨a1, a2⟩ =>
            ⟨fun hb => up (a1 hb), fun h => ?_⟩
          obtain ⟨grp', act', h1, h2, x, hx, a', h3, h4⟩ := h.later g l1
          rcases List.mem_cons.1 hx with rfl | hx
          · rw [hg] at h1; cases h1
            rw [ha] at h2; cases h2
            rw [(GoMap.mem_iff_get l1.good.inv.regR).1 h3] at hr; cases hr
            exact absurd (b2 h4) (by simp)
          · exact a2 (RoleGrants.later l1.good l2 ⟨grp', act', h1, h2, x, hx, a', h3, h4⟩)
      · trivial

theorem Prog.bind_assoc {α β γ : Type} (q : Prog α) (f : α → Prog β) (h : β → Prog γ) :
    (q.bind f).bind h = q.bind fun a => (f a).bind h := by
  induction q with
  | ret a => rfl
  | panic => rfl
  | diverge => rfl
  | step g k ih => simp only [Prog.bind]; congr 1; funext w; exact ih w

theorem Prog.bind_ret {α : Type} (q : Prog α) : (q.bind fun a => .ret a) = q := by
  induction q with
  | ret a => rfl
  | panic => rfl
  | diverge => rfl
  | step g k ih => simp only [Prog.bind]; congr 1; funext w; exact ih w

/-- The roles that `checkActivity` looks at (authorize.go:98-116). -/
def selectedP (o : Ord) (fuel : Nat) (site : List Val) (p : Str) (r : Request) (f : Flags) : Prog (List Str × List Str) :=
  (pickP f.t (collectRolesP o fuel (site ++ [.int 0]) p r.tenant) ([], [])).bind fun x =>
  (pickP f.tn (collectRolesTNP o fuel (site ++ [.int 1]) p r.tenant r.namespace_) x).bind fun x =>
  (pickP f.ts (collectRolesTSP o fuel (site ++ [.int 2]) p r.tenant r.scope) x).bind fun x =>
  (pickP f.ns (collectRolesNSP o fuel (site ++ [.int 3]) p r.namespace_ r.scope) x).bind fun x =>
  pickP f.tns (collectRolesTNSP o fuel (site ++ [.int 4]) p r.tenant r.namespace_ r.scope) x

theorem checkActivityP_eq {o : Ord} {fuel : Nat} {site : List Val} {p : Str} {r : Request} {f : Flags} :
    checkActivityP o fuel site p r f =
      if r.group = .nil then .ret false else if r.activity = .nil then .ret false
      else (selectedP o fuel site p r f).bind fun x =>
        if x.1.length = 0 then .ret false
        else roleLoopP o fuel (site ++ [.int 5]) r 0 x.2 (slicesCompact x.1) := by
  rw [checkActivityP, selectedP]
  simp only [Prog.bind_assoc]

theorem selectedP_wp {o : Ord} {fuel : Nat} {site : List Val} {p : Str} {r : Request} {c : Val} (g : Good C S w)
    (hc : c ≠ .nil ∨ r.tenant = .nil) :
    wp C S (fun x v => Found (RoleRow w p c r) (RoleRow v p c r) w v x)
      (selectedP o fuel site p { r with tenant := c } (flagsOf r)) w := by
  unfold selectedP flagsOf
  by_cases ht : r.tenant = .nil
  · by_cases hn : r.namespace_ = .nil
    · simp [ht, hn, pickP, Prog.bind]
      exact wp.ret fun v _ => by simp [Found, RoleRow, ht, hn]
    · by_cases hs : r.scope = .nil
      · simp [ht, hn, hs, pickP, Prog.bind]
        exact wp.ret fun v _ => by simp [Found, RoleRow, ht, hs]
      · simp [ht, hn, hs, pickP, Prog.bind, Prog.bind_ret]
        refine (collectRolesNSP_wp g hn hs).mono fun x v _ h => ?_
        simpa [Found, RoleRow, ht, hn, hs] using h
  · have hc : c ≠ .nil := hc.resolve_right ht
    by_cases hn : r.namespace_ = .nil
    · by_cases hs : r.scope = .nil
      · simp [ht, hn, hs, pickP, Prog.bind, Prog.bind_ret]
        refine (collectRolesP_wp g).mono fun x v _ h => ?_
        subst h
        simp [Found, RoleRow, ht, hn, hs]
      · simp [ht, hn, hs, pickP, Prog.bind, Prog.bind_ret]
        refine (collectRolesTSP_wp g hc hs).mono fun x v _ h => ?_
        simpa [Found, RoleRow, ht, hn, hs] using h
    · by_cases hs : r.scope = .nil
      · simp [ht, hn, hs, pickP, Prog.bind, Prog.bind_ret]
        refine (collectRolesTNP_wp g hc hn).mono fun x v _ h => ?_
        simpa [Found, RoleRow, ht, hn, hs] using h
      · simp [ht, hn, hs, pickP, Prog.bind, Prog.bind_ret]
        refine (collectRolesTNSP_wp g hc hn hs).mono fun x v _ h => ?_
        simpa [Found, RoleRow, ht, hn, hs] using h

theorem roleRow_mono {p : Str} {c : Val} {r : Request} {row : Data} (rows : ∀ row, Stored w row → Stored v row) (h : RoleRow w p c r row) :
    RoleRow v p c r row := by
  rcases h with h | h | h | ⟨a1, a2, a3, own, b1, b2⟩
  · exact .inl h
  · exact .inr (.inl h)
  · exact .inr (.inr (.inl h))
  · exact .inr (.inr (.inr ⟨a1, a2, a3, own, rows _ b1, b2⟩))

theorem checkActivityP_wp {o : Ord} {fuel : Nat} {site : List Val} {p : Str} {r : Request} {c : Val} (g : Good C S w)
    (hc : c ≠ .nil ∨ r.tenant = .nil) :
    wp C S (fun b v => (b = true → ∃ g act, r.group = .str g ∧ r.activity = .str act ∧ ActGrants v p c r g act) ∧
        ((∃ g act, r.group = .str g ∧ r.activity = .str act ∧ ActGrants w p c r g act) → b = true))
      (checkActivityP o fuel site p { r with tenant := c } (flagsOf r)) w := by
  rw [checkActivityP_eq]
  simp only
  split
  · rename_i hg
    exact wp.ret fun v _ => ⟨nofun, by simp [hg]⟩
  · split
    · rename_i ha
      exact wp.ret fun v _ => ⟨nofun, by simp [ha]⟩
    · refine wp.bind g (selectedP_wp g hc) fun x v l ⟨x1, x2, x3⟩ => ?_
      split
      · rename_i hl
        refine wp.ret fun z _ => ⟨nofun, ?_⟩
        rintro ⟨grp, act, e1, e2, row, role, a, d1, d2, d3, d4⟩
        have := x2 role row d1 d3 d2
        rw [List.length_eq_zero_iff.1 hl] at this
        cases this
      · rw [x1]
        refine (roleLoopP_wp l.good).mono fun b z lz ⟨b1, b2⟩ => ⟨fun hb => ?_, ?_⟩
        · obtain ⟨grp, act, e1, e2, role, hr, a, d1, d2⟩ := b1 hb
          obtain ⟨row, f1, f2, f3⟩ := x3 role (Mgr.mem_slicesCompact.1 hr)
          exact ⟨grp, act, e1, e2, row, role, a, lz.rows row f1, roleRow_mono lz.rows f3, f2, d1, d2⟩
        · rintro ⟨grp, act, e1, e2, row, role, a, d1, d2, d3, d4, d5⟩
          refine b2 (RoleGrants.later g l ⟨grp, act, e1, e2, role, Mgr.mem_slicesCompact.2 (x2 role row d1 d3 d2), a, d4, d5⟩)

theorem checkP_wp {o : Ord} {fuel : Nat} {site : List Val} {p : Str} {r : Request} {c : Val} (g : Good C S w)
    (hc : c ≠ .nil ∨ r.tenant = .nil) :
    wp C S (fun b v => (b = true → Decides v p c r) ∧ (Decides w p c r → b = true))
      (checkP o fuel site p { r with tenant := c } (flagsOf r)) w := by
  have hf : (flagsOf r).noActivity = true ↔ ¬ HasActivity r := by
    simp [flagsOf, HasActivity]
    by_cases hg : r.group = .nil <;> simp [hg]
  rw [checkP]
  unfold Decides
  split
  · rename_i hn
    have hna := hf.1 hn
    refine (checkNoActivityP_wp g hc).mono fun b v _ ⟨b1, b2⟩ => ⟨fun hb => .inl ⟨hna, b1 hb⟩, ?_⟩
    rintro (⟨_, hx⟩ | ⟨grp, act, e1, e2, _⟩)
    · exact b2 hx
    · exact absurd ⟨by rw [e1]; simp, by rw [e2]; simp⟩ hna
  · rename_i hn
    have hna : HasActivity r := Classical.not_not.1 (fun hx => hn (hf.2 hx))
    refine (checkActivityP_wp g hc).mono fun b v _ ⟨b1, b2⟩ => ⟨fun hb => .inr (b1 hb), ?_⟩
    rintro (⟨hx, _⟩ | hx)
    · exact absurd hna hx
    · exact b2 hx

theorem fallbackP_wp {o : Ord} {fuel : Nat} {site : List Val} {p : Str} {r : Request} {ts : List Str} {i : Nat} {c : Val}
    {w0 : Mgr} (g0 : Good C S w0) (g : Later C S w0 w) (hskip : ∀ t, c = .str t → ¬ Decides w0 p c r) :
    wp C S (fun b v => (b = true → ∃ t ∈ ts, Decides v p (.str t) r) ∧ ((∃ t ∈ ts, Decides w0 p (.str t) r) → b = true))
      (fallbackP o fuel site p (flagsOf r) i { r with tenant := c } ts) w := by
  induction ts generalizing i c w with
  | nil => exact wp.ret fun v _ => ⟨nofun, by simp⟩
  | cons t ts ih =>
    rw [fallbackP]
    split
    · rename_i hs
      have hs : c = .str t := (by simpa using hs : c = .str t ∧ _).1
      refine (ih g hskip).mono fun b v _ ⟨b1, b2⟩ => ⟨fun hb => ?_, ?_⟩
      · obtain ⟨x, hx, h⟩ := b1 hb
        exact ⟨x, by simp [hx], h⟩
      · rintro ⟨x, hx, h⟩
        rcases List.mem_cons.1 hx with rfl | hx
        · exact absurd (hs ▸ h) (hskip x hs)
        · exact b2 ⟨x, hx, h⟩
    · refine wp.bind g.good (checkP_wp (r := r) (c := .str t) g.good (.inl (by simp))) fun b v l ⟨b1, b2⟩ => ?_
      cases b with
      | true => exact wp.ret fun z lz => ⟨fun _ => ⟨t, by simp, lz.decides l.good (b1 rfl)⟩, fun _ => rfl⟩
      | false =>
        have hno : ¬ Decides w0 p (.str t) r := fun hx => absurd (b2 (g.decides g0 hx)) (by simp)
        refine (show wp C S _ (fallbackP o fuel site p (flagsOf r) (i + 1) { r with tenant := .str t } ts) v from
          ih (g.trans l) (c := .str t) fun _ _ => hno).mono fun b z _ ⟨a1, a2⟩ => ⟨fun hb => ?_, ?_⟩
        · obtain ⟨x, hx, h⟩ := a1 hb
          exact ⟨x, by simp [hx], h⟩
        · rintro ⟨x, hx, h⟩
          rcases List.mem_cons.1 hx with rfl | hx
          · exact absurd h hno
          · exact a2 ⟨x, hx, h⟩

/-- `Authorize` among calls that only add: what it grants is allowed when it returns, what it refuses was not allowed when it began. -/
theorem authorizeP_wp {o : Ord} {fuel : Nat} {site : List Val} {p : Str} {opts : List Opt} (g : Good C S w) :
    wp C S (fun b v =>
        (b = true → ∃ I, AC.Allowed v p (requestOf opts) I ∧ (∀ x ∈ I, Entitled v p x) ∧ ∀ J, C.get p = some J → I = J) ∧
        (b = false → ∀ K, (C.get p = some K ∨ ∀ x ∈ K, S p x) → ¬ AC.Allowed w p (requestOf opts) K))
      (authorizeP o fuel site p opts) w := by
  rw [authorizeP]
  change wp C S _ (rd _ fun x => if x = true then Prog.ret false else (implicitTenantsP o fuel (site ++ [.int 0]) p).bind fun I =>
    if I.length = 0 then .ret false else (validateP (requestOf opts)).bind fun v => if !v then .ret false else
      (checkP o fuel (site ++ [.int 1]) p (requestOf opts) (flagsOf (requestOf opts))).bind fun b => if b then .ret true else
        fallbackP o fuel (site ++ [.int 2]) p (flagsOf (requestOf opts)) 0 (requestOf opts) (o.ord (site ++ [.int 3]) _ I)) w
  generalize requestOf opts = r
  refine wp.rd fun v1 l1 => ?_
  split
  · rename_i hn
    refine wp.ret fun z _ => ⟨nofun, fun _ K _ => ?_⟩
    rintro ⟨⟨x, hx⟩, _⟩
    rw [show v1.principals.get p = some x from l1.reg .principal p x ((GoMap.mem_iff_get g.inv.regP).1 hx)] at hn
    cases hn
  · rename_i hn
    have hp : ∃ x, v1.principals.get p = some x := by
      cases h : v1.principals.get p with
      | none => rw [h] at hn; exact absurd rfl hn
      | some x => exact ⟨x, rfl⟩
    obtain ⟨x0, hp⟩ := hp
    refine wp.bind l1.good implicitTenantsP_wp fun I v2 l2 ⟨i1, i2, i3⟩ => ?_
    have hK : ∀ K, (C.get p = some K ∨ ∀ x ∈ K, S p x) → ∀ x ∈ K, x ∈ I := by
      rintro K (h | h) x hx
      · rw [i1 K h]; exact hx
      · exact i2 x (h x hx)
    split
    · rename_i hl
      have hl : I = [] := List.length_eq_zero_iff.1 hl
      subst hl
      refine wp.ret fun z _ => ⟨nofun, fun _ K hk => ?_⟩
      rintro ⟨_, hne, _⟩
      obtain ⟨x, hx⟩ := List.exists_mem_of_ne_nil K hne
      cases hK K hk x hx
    · rename_i hl
      have hne : I ≠ [] := fun e => hl (by rw [e]; rfl)
      refine wp.bind l2.good (validateP_wp l2.good) fun a v3 l3 ⟨a1, a2⟩ => ?_
      cases a with
      | false =>
        refine wp.ret fun z _ => ⟨nofun, fun _ K hk => ?_⟩
        rintro ⟨_, _, hr, _⟩
        exact absurd (a2 ((l1.trans l2).resources g hr)) (by simp)
      | true =>
        have l13 := (l1.trans l2).trans l3
        have allowed : ∀ {z : Mgr} {c : Val}, Later C S v3 z → (c = r.tenant ∨ ∃ t ∈ I, c = .str t) → Decides z p c r →
            ∃ I, AC.Allowed z p r I ∧ (∀ x ∈ I, Entitled z p x) ∧ ∀ J, C.get p = some J → I = J := fun lz hc hd =>
          ⟨I, ⟨⟨x0, GoMap.get_some_mem (((l2.trans l3).trans lz).reg .principal p x0 hp)⟩, hne, lz.resources l3.good (a1 rfl), _, hc, hd⟩,
            fun x hx => (i3 x hx).later (l3.trans lz), i1⟩
        refine wp.bind l3.good (checkP_wp (r := r) (c := r.tenant) l3.good (by by_cases h : r.tenant = .nil <;> simp [h])) fun b v4 l4 ⟨b1, b2⟩ => ?_
        cases b with
        | true => exact wp.ret fun z lz => ⟨fun _ => allowed (l4.trans lz) (.inl rfl) (lz.decides l4.good (b1 rfl)), nofun⟩
        | false =>
          have hno : ¬ Decides w p r.tenant r := fun h => absurd (b2 (l13.decides g h)) (by simp)
          refine (show wp C S _ (fallbackP o fuel _ p (flagsOf r) 0 { r with tenant := r.tenant } _) v4 from
            fallbackP_wp (r := r) (c := r.tenant) g (l13.trans l4) fun _ _ => hno).mono fun b z lz ⟨f1, f2⟩ => ⟨fun hb => ?_, fun hb K hk => ?_⟩
          · obtain ⟨t, ht, hd⟩ := f1 hb
            exact allowed (l4.trans lz) (.inr ⟨t, (o.perm _ _ _).mem_iff.1 ht, rfl⟩) hd
          · rintro ⟨_, _, _, c, rfl | ⟨t, ht, rfl⟩, hd⟩
            · exact hno hd
            · rw [f2 ⟨t, (o.perm _ _ _).mem_iff.2 (hK K hk t ht), hd⟩] at hb
              cases hb

end AD
end Verif
