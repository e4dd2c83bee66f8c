import Verif.Lemmas.Cost
import Verif.Props.Role

/-! # How much work `Role.Has` is (C122) -/

namespace Verif
open Spec

namespace RHeap
variable {h : RHeap} {o : Ord} {group name : Str} {allowed : List Str} {n : Nat} {site : List Val} {r : Nat}

theorem anyC_fst {α : Type} {f : Nat → α → Out (Bool × Nat)} {g : Nat → α → Out Bool} {xs : List α} {i : Nat}
    (hfg : ∀ j, ∀ x ∈ xs, (f j x).map (·.1) = g j x) : (Out.anyC f i xs).map (·.1) = Out.anyI g i xs := by
  induction xs generalizing i with
  | nil => rfl
  | cons x xs ih =>
    have ih := ih (i := i + 1) fun j y hy => hfg j y (by simp [hy])
    have hx := hfg i x (by simp)
    unfold Out.anyC Out.anyI
    rw [← hx]
    cases hf : f i x with
    | panic => rfl
    | diverge => rfl
    | ok bc =>
      obtain ⟨b, c⟩ := bc
      cases b with
      | true => rfl
      | false =>
        simp only [Out.bind_ok, Out.map_ok, Bool.false_eq_true, if_false]
        rw [← ih]
        cases Out.anyC f (i + 1) xs <;> rfl

/-- C122. Counting does not change the answers: `hasCount` returns, panics and runs on exactly where `has` does. -/
theorem _root_.Verif.C122_counted : (h.hasCount o group name allowed n site r).map (·.1) = h.has o group name allowed n site r := by
  induction n generalizing site r with
  | zero => rfl
  | succ n ih =>
    rw [hasCount, has]
    cases h.roles[r]? with
    | none => rfl
    | some ro =>
      simp only
      cases ro.perms.get group with
      | none => rfl
      | some ga =>
        simp only
        cases h.groups[ga]? with
        | none => rfl
        | some g =>
          simp only
          split
          · rfl
          · cases Out.anyI (fun _ (e : Str × Attr) => matchResource name e.1) 0 (o.ord (site ++ [.int 0]) _ g.perms) with
            | panic => rfl
            | diverge => rfl
            | ok m =>
              simp only [Out.bind_ok]
              cases m with
              | true => rfl
              | false =>
                simp only [Bool.false_eq_true, if_false]
                cases h.descRoles o n (site ++ [.int 1]) r with
                | panic => rfl
                | diverge => rfl
                | ok ds =>
                  simp only [Out.bind_ok]
                  rw [← anyC_fst (f := fun i d =>
                    match h.roles[d]? with
                    | none => .panic
                    | some dr =>
                      if 0 < allowed.length then
                        if dr.id ∈ allowed then hasCount h o group name allowed n (site ++ [.int 2, .int i]) d
                        else .ok (false, 0)
                      else hasCount h o group name allowed n (site ++ [.int 2, .int i]) d)]
                  · cases Out.anyC _ 0 ds <;> rfl
                  · intro j d _
                    cases h.roles[d]? with
                    | none => rfl
                    | some dr =>
                      simp only
                      split
                      · split
                        · exact ih
                        · rfl
                      · exact ih

theorem anyC_le {α : Type} {f : Nat → α → Out (Bool × Nat)} {G : α → Nat} {xs : List α} {i : Nat} {b : Bool} {c : Nat}
    (hf : ∀ j, ∀ x ∈ xs, ∀ b c, f j x = .ok (b, c) → c ≤ G x) (he : Out.anyC f i xs = .ok (b, c)) : c ≤ (xs.map G).sum := by
  induction xs generalizing i b c with
  | nil => cases he; exact Nat.zero_le _
  | cons x xs ih =>
    rw [Out.anyC] at he
    obtain ⟨⟨b1, c1⟩, h1, h2⟩ := Out.bind_eq_ok.1 he
    have hx := hf i x (by simp) _ _ h1
    simp only [List.map_cons, List.sum_cons]
    simp only at h2
    split at h2
    · cases h2; omega
    · obtain ⟨⟨b2, c2⟩, h3, h4⟩ := Out.map_eq_ok.1 h2
      have := ih (fun j y hy => hf j y (by simp [hy])) h3
      cases h4
      omega

theorem anyC_eq {α : Type} {f : Nat → α → Out (Bool × Nat)} {G : α → Nat} {xs : List α} {i : Nat} {c : Nat}
    (hf : ∀ j, ∀ x ∈ xs, ∀ c, f j x = .ok (false, c) → c = G x) (he : Out.anyC f i xs = .ok (false, c)) : c = (xs.map G).sum := by
  induction xs generalizing i c with
  | nil => cases he; rfl
  | cons x xs ih =>
    rw [Out.anyC] at he
    obtain ⟨⟨b1, c1⟩, h1, h2⟩ := Out.bind_eq_ok.1 he
    simp only [List.map_cons, List.sum_cons]
    cases b1 with
    | true => cases h2
    | false =>
      have hx := hf i x (by simp) _ h1
      simp only [Bool.false_eq_true, if_false] at h2
      obtain ⟨⟨b2, c2⟩, h3, h4⟩ := Out.map_eq_ok.1 h2
      simp only [Prod.mk.injEq] at h4
      obtain ⟨rfl, rfl⟩ := h4
      rw [← ih (fun j y hy => hf j y (by simp [hy])) h3, hx]

theorem hasCount_le {b : Bool} {c : Nat} (he : h.hasCount o group name allowed n site r = .ok (b, c)) {m : Nat} (hm : n ≤ m) :
    c ≤ 1 + geo (roleKids h) 2 (fun _ => 1) m r := by
  induction n generalizing site r b c m with
  | zero => cases he
  | succ n ih =>
    rw [hasCount] at he
    cases hr : h.roles[r]? with
    | none => rw [hr] at he; cases he
    | some ro =>
      rw [hr] at he
      simp only at he
      cases hp : ro.perms.get group with
      | none => rw [hp] at he; cases he; omega
      | some ga =>
        rw [hp] at he
        simp only at he
        cases hg : h.groups[ga]? with
        | none => rw [hg] at he; cases he
        | some g =>
          rw [hg] at he
          simp only at he
          split at he
          · cases he; omega
          · obtain ⟨mt, _, h2⟩ := Out.bind_eq_ok.1 he
            split at h2
            · cases h2; omega
            · obtain ⟨ds, h3, h4⟩ := Out.bind_eq_ok.1 h2
              obtain ⟨⟨b2, c2⟩, h5, h6⟩ := Out.map_eq_ok.1 h4
              cases h6
              have := anyC_le (G := fun d => 1 + geo (roleKids h) 2 (fun _ => 1) m d) (by
                intro j d _ b c hf
                cases hd : h.roles[d]? with
                | none => rw [hd] at hf; cases hf
                | some dr =>
                  rw [hd] at hf
                  simp only at hf
                  split at hf
                  · split at hf
                    · exact ih hf (by omega)
                    · cases hf; omega
                  · exact ih hf (by omega)) h5
              rw [descRoles_weight h3 (by omega)] at this
              simp only
              omega

theorem hasCount_eq {c : Nat} (he : h.hasCount o group name allowed n site r = .ok (false, c))
    (hg : ∀ d, d = r ∨ Desc h r d → ∃ g, GroupOf h d group g)
    (ha : ∀ d dr, Desc h r d → h.roles[d]? = some dr → allowed = [] ∨ dr.id ∈ allowed) {m : Nat} (hm : n ≤ m) :
    c = 1 + geo (roleKids h) 2 (fun _ => 1) m r := by
  induction n generalizing site r c m with
  | zero => cases he
  | succ n ih =>
    rw [hasCount] at he
    cases hr : h.roles[r]? with
    | none => rw [hr] at he; cases he
    | some ro =>
      rw [hr] at he
      simp only at he
      cases hp : ro.perms.get group with
      | none =>
        obtain ⟨g, ro', ga, h1, h2, _⟩ := hg r (.inl rfl)
        rw [hr] at h1; cases h1
        exact absurd (List.mem_map_of_mem h2) (GoMap.get_none_iff.1 hp)
      | some ga =>
        rw [hp] at he
        simp only at he
        cases hg' : h.groups[ga]? with
        | none => rw [hg'] at he; cases he
        | some g =>
          rw [hg'] at he
          simp only at he
          split at he
          · cases he
          · obtain ⟨mt, _, h2⟩ := Out.bind_eq_ok.1 he
            split at h2
            · cases h2
            · obtain ⟨ds, h3, h4⟩ := Out.bind_eq_ok.1 h2
              obtain ⟨⟨b2, c2⟩, h5, h6⟩ := Out.map_eq_ok.1 h4
              simp only [Prod.mk.injEq] at h6
              obtain ⟨rfl, rfl⟩ := h6
              have := anyC_eq (G := fun d => 1 + geo (roleKids h) 2 (fun _ => 1) m d) (by
                intro j d hds c hf
                have hrd := (descRoles_mem h3 d).1 hds
                have key : ∀ {s c}, h.hasCount o group name allowed n s d = .ok (false, c) →
                    c = 1 + geo (roleKids h) 2 (fun _ => 1) m d := fun hf => ih hf
                  (fun d' hd' => hg d' (.inr (hd'.elim (fun e => e ▸ hrd) (desc_trans hrd))))
                  (fun d' dr' hd' => ha d' dr' (desc_trans hrd hd')) (by omega)
                cases hd : h.roles[d]? with
                | none => rw [hd] at hf; cases hf
                | some dr =>
                  rw [hd] at hf
                  simp only at hf
                  split at hf
                  · split at hf
                    · exact key hf
                    · rename_i h1 h2
                      rcases ha d dr hrd hd with h3 | h3
                      · rw [h3] at h1; exact absurd h1 (by simp)
                      · exact absurd h3 h2
                  · exact key hf) h5
              rw [descRoles_weight h3 (by omega)] at this
              omega

end RHeap

variable {h : RHeap} {o : Ord} {group name : Str} {allowed : List Str} {n : Nat} {site : List Val} {r : Nat}

/-- C122. Whatever is asked: if no walk down from the role has more than `H` links, `Has` is called at most once for the
role itself and `2 ^ k` times for each walk of `k + 1` links. -/
theorem C122_at_most {b : Bool} {c : Nat} (he : h.hasCount o group name allowed n site r = .ok (b, c)) {H : Nat}
    (hH : walks (roleKids h) (H + 1) r = 0) : c ≤ 1 + sumTo H fun k => 2 ^ k * walks (roleKids h) (k + 1) r := by
  have := RHeap.hasCount_le he (Nat.le_max_left n H)
  rwa [geo_high hH (Nat.le_max_right n H), geo_eq] at this

/-- C122. A refused question is exactly that much work, if the role and all its descendants have the group and the
list of allowed descendants excludes none of them. -/
theorem C122_refused {c : Nat} (he : h.hasCount o group name allowed n site r = .ok (false, c))
    (hg : ∀ d, d = r ∨ Desc h r d → ∃ g, GroupOf h d group g)
    (ha : ∀ d dr, Desc h r d → h.roles[d]? = some dr → allowed = [] ∨ dr.id ∈ allowed) {H : Nat}
    (hH : walks (roleKids h) (H + 1) r = 0) : c = 1 + sumTo H fun k => 2 ^ k * walks (roleKids h) (k + 1) r := by
  have := RHeap.hasCount_eq he hg ha (Nat.le_max_left n H)
  rwa [geo_high hH (Nat.le_max_right n H), geo_eq] at this

/-- C122. A refused question to a role whose descendants have no descendants of their own: one call for each of them. -/
theorem C122_flat_partial {b : Bool} {c : Nat} (he : h.hasCount o group name allowed n site r = .ok (b, c))
    (hf : ∀ d ∈ roleKids h r, roleKids h d = []) : c ≤ 1 + (roleKids h r).length := by
  have hH : walks (roleKids h) 2 r = 0 := by
    unfold walks walkSum
    rw [← sum_zero (roleKids h r)]
    exact sum_congr fun d hd => by rw [walkSum, hf d hd]; rfl
  refine Nat.le_trans (C122_at_most he hH) ?_
  have : walks (roleKids h) 1 r = (roleKids h r).length := by
    show ((roleKids h r).map fun _ => 1).sum = _
    induction roleKids h r with
    | nil => rfl
    | cons a l ih => simp only [List.map_cons, List.sum_cons, ih, List.length_cons]; omega
  show 1 + (2 ^ 0 * walks (roleKids h) 1 r + 0) ≤ _
  omega

theorem geo_bound {kids : Nat → List Nat} {N : Nat} (hN : ∀ d, (kids d).length ≤ N) (H r : Nat) :
    1 + geo kids 2 (fun _ => 1) H r ≤ (2 * N + 1) ^ H := by
  induction H generalizing r with
  | zero => exact Nat.le_refl _
  | succ H ih =>
    have h1 : geo kids 2 (fun _ => 1) (H + 1) r ≤ (kids r).length * (2 * (2 * N + 1) ^ H) := by
      rw [geo]
      induction kids r with
      | nil => simp
      | cons a l ihl =>
        have := ih a
        rw [List.map_cons, List.sum_cons, List.length_cons, Nat.succ_mul l.length]
        omega
    have h2 := Nat.mul_le_mul_right (2 * (2 * N + 1) ^ H) (hN r)
    have h3 : (2 * N + 1) ^ (H + 1) = N * (2 * (2 * N + 1) ^ H) + (2 * N + 1) ^ H := by
      rw [Nat.pow_succ, Nat.mul_comm, Nat.add_mul, Nat.one_mul, Nat.mul_comm 2 N, Nat.mul_assoc]
    have h4 : 1 ≤ (2 * N + 1) ^ H := Nat.pos_of_ne_zero (by simp)
    omega

/-- C122. If no role has more than `N` direct descendants and no walk down from the role has more than `H` links, `Has` makes
at most `(2 N + 1) ^ H` calls.  Missing: a bound that does not grow exponentially with the height, which is false. -/
theorem C122_height_partial {b : Bool} {c : Nat} (he : h.hasCount o group name allowed n site r = .ok (b, c)) {N H : Nat}
    (hN : ∀ d, (roleKids h d).length ≤ N) (hH : walks (roleKids h) (H + 1) r = 0) : c ≤ (2 * N + 1) ^ H := by
  refine Nat.le_trans (C122_at_most he hH) ?_
  have := geo_bound hN H r
  rwa [geo_eq] at this

/-! ## A chain of roles -/

def chainId (i : Nat) : Str := List.replicate i 97

/-- Roles "", "a", "aa", ... with the group "g" and without permissions; each has the one before as descendant. -/
def chainOps : Nat → List RoleOp
  | 0 => [.newRole (chainId 0), .addPerm 0 (str "g") []]
  | n + 1 => chainOps n ++ [.newRole (chainId (n + 1)), .addPerm (n + 1) (str "g") [], .addDesc (n + 1) [n]]

def chainRole (i : Nat) : RoleObj :=
  { id := chainId i, perms := [(str "g", i)], desc := if i = 0 then [] else [(chainId (i - 1), i - 1)] }

def chainHeap (n : Nat) : RHeap :=
  { roles := (List.range (n + 1)).map chainRole, groups := (List.range (n + 1)).map fun _ => { id := str "g" } }

theorem run_append {h : RHeap} {as bs : List RoleOp} : RoleOp.run h (as ++ bs) = (RoleOp.run h as).bind fun h' => RoleOp.run h' bs := by
  induction as generalizing h with
  | nil => rfl
  | cons a as ih =>
    rw [List.cons_append, RoleOp.run, RoleOp.run]
    cases a.apply h with
    | ok h' => simp only [Out.bind_ok, ih]
    | panic => rfl
    | diverge => rfl

theorem set_last {α : Type} (l : List α) (x y : α) : (l ++ [x]).set l.length y = l ++ [y] := by simp

theorem chain_run (n : Nat) : RoleOp.run {} (chainOps n) = .ok (chainHeap n) := by
  induction n with
  | zero => rfl
  | succ n ih =>
    rw [chainOps, run_append, ih]
    have l1 : (List.map chainRole (List.range (n + 1))).length = n + 1 := by simp
    have l2 : (List.map (fun _ => ({ id := str "g" } : GroupObj)) (List.range (n + 1))).length = n + 1 := by simp
    have e1 : ∀ x : RoleObj, (List.map chainRole (List.range (n + 1)) ++ [x])[n + 1]? = some x := fun x => by
      rw [List.getElem?_append_right (by simp)]; simp
    have e2 : ∀ x : RoleObj, (List.map chainRole (List.range (n + 1)) ++ [x])[n]? = some (chainRole n) := fun x => by
      rw [List.getElem?_append_left (by simp)]; simp
    have s1 : ∀ x y : RoleObj, (List.map chainRole (List.range (n + 1)) ++ [x]).set (n + 1) y =
        List.map chainRole (List.range (n + 1)) ++ [y] := fun x y => by
      have := set_last (List.map chainRole (List.range (n + 1))) x y
      rwa [l1] at this
    simp only [Out.bind_ok, RoleOp.run, RoleOp.apply, RHeap.newRole, RHeap.addPermission, chainHeap, e1, Bool.false_eq_true,
      if_false, GoMap.get_nil, Out.map_ok, s1, RHeap.addDescendant, RHeap.addDescendant.loop, e2, Option.isSome_none, l2,
      RHeap.addAttrsKeep, GoMap.set]
    rw [List.range_succ (n := n + 1)]
    simp only [List.map_append, List.map_cons, List.map_nil]
    rfl

theorem chain_role {n i : Nat} (hi : i ≤ n) : (chainHeap n).roles[i]? = some (chainRole i) := by
  show (List.map chainRole (List.range (n + 1)))[i]? = _
  rw [List.getElem?_map, List.getElem?_range (by omega)]; rfl

theorem chain_kids {n i : Nat} (hi : i ≤ n) : roleKids (chainHeap n) i = if i = 0 then [] else [i - 1] := by
  rw [RHeap.roleKids_some (chain_role hi)]
  unfold chainRole
  simp only
  split <;> rfl

theorem chain_walks {n k i : Nat} (hi : i ≤ n) : walks (roleKids (chainHeap n)) k i = if k ≤ i then 1 else 0 := by
  induction k generalizing i with
  | zero => rfl
  | succ k ih =>
    unfold walks walkSum
    rw [chain_kids hi]
    cases i with
    | zero => rfl
    | succ i =>
      have := ih (i := i) (by omega)
      unfold walks at this
      simp only [Nat.add_one_ne_zero, if_false, Nat.add_sub_cancel, List.map_cons, List.map_nil, List.sum_cons, List.sum_nil, this]
      simp only [Nat.add_zero, Nat.add_le_add_iff_right]

theorem sum_pow (n : Nat) : 1 + sumTo n (fun k => 2 ^ k) = 2 ^ n := by
  induction n with
  | zero => rfl
  | succ n ih =>
    have : sumTo (n + 1) (fun k => 2 ^ k) = sumTo n (fun k => 2 ^ k) + 2 ^ n := by
      unfold sumTo
      rw [List.range_succ, List.map_append, List.sum_append]; simp
    rw [this, Nat.pow_succ]; omega

theorem chain_child {n r d : Nat} (hr : r ≤ n) (hc : Child (chainHeap n) r d) : d + 1 = r := by
  obtain ⟨ro, k, h1, h2⟩ := hc
  rw [chain_role hr] at h1; cases h1
  unfold chainRole at h2
  simp only at h2
  split at h2
  · cases h2
  · rw [List.mem_singleton] at h2; cases h2; omega

theorem chain_desc {n r d : Nat} (hr : r ≤ n) (hd : Desc (chainHeap n) r d) : d < r := by
  induction hd with
  | child hc => have := chain_child hr hc; omega
  | step hc _ ih => have := chain_child hr hc; have := ih (by omega); omega

theorem chain_acc {n r : Nat} (hr : r ≤ n) : Acc (fun d c => Child (chainHeap n) c d) r := by
  induction r with
  | zero => exact ⟨_, fun d hd => by have := chain_child hr hd; omega⟩
  | succ r ih => exact ⟨_, fun d hd => by have := chain_child hr hd; cases this; exact ih (by omega)⟩

theorem chain_group {n d : Nat} {g : GroupObj} (hg : GroupOf (chainHeap n) d (str "g") g) : g = { id := str "g" } := by
  obtain ⟨ro, ga, h1, h2, h3⟩ := hg
  rw [show (chainHeap n).groups = (List.range (n + 1)).map fun _ => { id := str "g" } from rfl, List.getElem?_map,
    Option.map_eq_some_iff] at h3
  obtain ⟨_, _, rfl⟩ := h3
  rfl

theorem chain_has_group {n d : Nat} (hd : d ≤ n) : ∃ g, GroupOf (chainHeap n) d (str "g") g := by
  refine ⟨{ id := str "g" }, chainRole d, d, chain_role hd, List.mem_singleton.2 rfl, ?_⟩
  show (List.map (fun _ => ({ id := str "g" } : GroupObj)) (List.range (n + 1)))[d]? = _
  rw [List.getElem?_map, List.getElem?_range (by omega)]; rfl

/-- C122. In a chain of `n + 1` roles without any permission, asking the topmost role takes exactly `2 ^ n` calls, for every question
and every order of maps. -/
theorem C122_chain (n : Nat) (name : Str) : ∃ h, RoleOp.run {} (chainOps n) = .ok h ∧ h.roles.length = n + 1 ∧
    ∃ m, ∀ fuel ≥ m, ∀ o site, h.hasCount o (str "g") name [] fuel site n = .ok (false, 2 ^ n) := by
  have ok := RoleOp.reachable_ok (chain_run n)
  refine ⟨chainHeap n, chain_run n, by simp [chainHeap], ?_⟩
  have hle : ∀ d, d = n ∨ Desc (chainHeap n) n d → d ≤ n := by
    rintro d (rfl | hd)
    · exact Nat.le_refl _
    · exact Nat.le_of_lt (chain_desc (Nat.le_refl _) hd)
  have none : ∀ d, d ≤ n → ¬ OwnGrant (chainHeap n) d (str "g") name := by
    rintro d hd ⟨g, h1, k, a, h2, _⟩
    rw [chain_group h1] at h2; cases h2
  obtain ⟨m, hm⟩ := C17_terminates ok (group := str "g") (name := name) (r := n) (chain_acc (Nat.le_refl _)) (by simp [chainHeap]) (by
    intro d hd g hg e he
    rw [chain_group hg] at he; cases he)
  refine ⟨m, fun fuel hf o site => ?_⟩
  obtain ⟨b, hb⟩ := hm fuel hf [] o site
  have hb' : b = false := by
    cases b with
    | false => rfl
    | true =>
      obtain ⟨_, h1 | ⟨d, dr, h1, _, _, h2⟩⟩ := (C16_has ok hb).1 rfl
      · exact absurd h1 (none _ (Nat.le_refl _))
      · exact absurd h2 (none _ (hle d (.inr h1)))
  rw [← C122_counted] at hb
  obtain ⟨⟨b', c⟩, h1, h2⟩ := Out.map_eq_ok.1 hb
  simp only at h2
  subst h2; subst hb'
  rw [h1]
  have := C122_refused h1 (fun d hd => chain_has_group (hle d hd)) (fun _ _ _ _ => .inl rfl) (H := n)
    (by rw [chain_walks (Nat.le_refl _)]; simp)
  rw [this, ← sum_pow]
  congr 3
  refine sum_congr fun k hk => ?_
  have : k < n := List.mem_range.1 hk
  rw [chain_walks (Nat.le_refl _), if_pos (by omega), Nat.mul_one]

/-! ## C122 as intended -/

/-- C122 as intended: the number of calls is bounded by a polynomial in the number of roles. -/
def C122_full : Prop := ∃ k, ∀ ops h o group name allowed n site r b c, RoleOp.run {} ops = .ok h →
  h.hasCount o group name allowed n site r = .ok (b, c) → c ≤ (h.roles.length + k) ^ k

theorem pow_beats (k : Nat) : ∃ n, (n + 1 + k) ^ k < 2 ^ n := by
  have h1 : ∀ k : Nat, (2 * k + 5) * k < 2 ^ (2 * k + 4) ∧ k + 1 ≤ 2 ^ k := by
    intro k
    induction k with
    | zero => decide
    | succ k ih =>
      obtain ⟨ih, ih'⟩ := ih
      have e : 2 ^ (2 * (k + 1) + 4) = 4 * 2 ^ (2 * k + 4) := by
        rw [show 2 * (k + 1) + 4 = (2 * k + 4) + 2 from by omega, Nat.pow_add, Nat.mul_comm]
      have e2 : 2 ^ (2 * k + 4) = 16 * (2 ^ k * 2 ^ k) := by
        rw [Nat.pow_add, Nat.two_mul, Nat.pow_add, Nat.mul_comm]
      have e3 : (2 * (k + 1) + 5) * (k + 1) = (2 * k + 5) * k + (4 * k + 7) := by
        simp only [Nat.add_mul, Nat.mul_add]; omega
      have e4 : k + 1 ≤ 2 ^ k * 2 ^ k := Nat.le_trans ih' (Nat.le_mul_of_pos_left _ (Nat.pos_of_ne_zero (by simp)))
      refine ⟨?_, ?_⟩
      · rw [e, e3]; omega
      · rw [Nat.pow_succ]; omega
  obtain ⟨h2, h3⟩ := h1 k
  refine ⟨2 ^ (2 * k + 4), ?_⟩
  have h4 : 2 ^ (2 * k + 4) + 1 + k ≤ 2 ^ (2 * k + 5) := by
    have : 2 ^ k ≤ 2 ^ (2 * k + 4) := Nat.pow_le_pow_right (by omega) (by omega)
    rw [Nat.pow_succ 2 (2 * k + 4)]; omega
  refine Nat.lt_of_le_of_lt (Nat.pow_le_pow_left h4 k) ?_
  rw [← Nat.pow_mul]
  exact Nat.pow_lt_pow_right (by omega) h2

/-- C122. No polynomial bounds the number of calls. -/
theorem C122_full_false : ¬ C122_full := by
  rintro ⟨k, hk⟩
  obtain ⟨n, hn⟩ := pow_beats k
  obtain ⟨h, h1, h2, m, h3⟩ := C122_chain n (str "/a GET")
  have := hk _ h _ _ _ _ _ _ _ _ _ h1 (h3 m (Nat.le_refl _) .fwd [])
  rw [h2] at this
  omega

/-- C122. A boss of three workers: four calls when refused, two when the first worker may do it; a chain of five roles: sixteen. -/
example : ∃ h, RoleOp.run {} [.newRole (str "boss"), .newRole (str "a"), .newRole (str "b"), .newRole (str "c"),
      .addPerm 0 (str "g") [], .addPerm 1 (str "g") [⟨str "/x", str "GET"⟩], .addPerm 2 (str "g") [], .addPerm 3 (str "g") [],
      .addDesc 0 [1, 2, 3]] = .ok h ∧ h.hasCount .fwd (str "g") (str "/y GET") [] 4 [] 0 = .ok (false, 4) ∧
    h.hasCount .fwd (str "g") (str "/x GET") [] 4 [] 0 = .ok (true, 2) ∧
    h.hasCount .rev (str "g") (str "/x GET") [] 4 [] 0 = .ok (true, 4) ∧
    (chainHeap 4).hasCount .fwd (str "g") (str "/y GET") [] 9 [] 4 = .ok (false, 16) := by
  refine ⟨_, rfl, ?_⟩
  decide +kernel

end Verif
