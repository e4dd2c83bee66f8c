import Verif.Model.Bulk
import Verif.Props.V1Setup
import Verif.Props.Text

/-!
# C78: bulk registrations, lookups and summaries, root package and v1
(tenant.go:152-160, namespace.go:25-33, scope.go:25-33, principal.go:20-28, permission.go:44-74, activity.go:17-25,
activity_group.go:21-29, role_manager.go:163-191, query.go:69-75, v1/role_manager.go:65-250, 755-783)
-/

namespace Verif
open Spec

/-- The object of the first entry with this id. -/
def firstWith (id : Str) (xs : List (Str × Nat)) : Option Nat := (xs.find? fun x => x.1 = id).map (·.2)

/-- The arguments that are valid pointers, with their ids. -/
def withIds {α : Type} (objs : List α) (ident : α → Str) (as : List Nat) : List (Str × Nat) :=
  as.filterMap fun a => (objs[a]?).map fun t => (ident t, a)

theorem get_foldl_register (xs : List (Str × Nat)) (m : GoMap Str Nat) (id : Str) :
    (xs.foldl (fun m x => (register m x.1 x.2).2) m).get id = (m.get id).or (firstWith id xs) := by
  induction xs generalizing m with
  | nil => simp [firstWith]
  | cons x xs ih =>
    rw [List.foldl_cons, ih]
    have e : (register m x.1 x.2).2.get id = (m.get id).or (if x.1 = id then some x.2 else none) := by
      unfold register
      split
      · rename_i d hd
        by_cases h : x.1 = id
        · subst h; simp [hd]
        · simp [h]
      · rename_i hd
        rw [GoMap.get_set]
        by_cases h : x.1 = id
        · subst h; simp [hd]
        · simp [h]
    rw [e, Option.or_assoc]
    by_cases h : x.1 = id <;> simp [h, firstWith]

/-- Two ids in `xs` under `t`: the first one counts. -/
example : firstWith (str "b") [(str "a", 1), (str "b", 2), (str "b", 3)] = some 2 := by decide +kernel

/-! ## Root package -/

/-- A bulk registration. -/
inductive Bulk where
  | tenants (as : List Nat) | namespaces (xs : List (Str × Nat)) | scopes (xs : List (Str × Nat))
  | principals (xs : List (Str × Nat)) | roles (as : List Nat) | attributes (xs : List (Attr × Nat))
  | groups (as : List Nat)

namespace Bulk

def kind : Bulk → Kind
  | tenants _ => .tenant | namespaces _ => .namespace_ | scopes _ => .scope | principals _ => .principal
  | roles _ => .role | attributes _ => .attribute | groups _ => .group

/-- The call. -/
def apply (w : Mgr) : Bulk → Out Mgr
  | tenants as => w.addTenants as
  | namespaces xs => .ok (w.addNamespaces xs)
  | scopes xs => .ok (w.addScopes xs)
  | principals xs => .ok (w.addPrincipals xs)
  | roles as => w.addRoles as
  | attributes xs => .ok (w.addAttributes xs)
  | groups as => w.addAttributeGroups as

/-- Ids and objects of the arguments. -/
def items (w : Mgr) : Bulk → List (Str × Nat)
  | tenants as => withIds w.tobjs (·.id) as
  | namespaces xs => xs
  | scopes xs => xs
  | principals xs => xs
  | roles as => withIds w.heap.roles (·.id) as
  | attributes xs => xs.map fun x => (x.1.resource ++ 32 :: x.1.action, x.2)
  | groups as => withIds w.heap.groups (·.id) as

/-- One single registration per argument, in order. -/
def singles : Bulk → List MOp
  | tenants as => as.map .addTenant
  | namespaces xs => xs.map fun x => .addNamespace x.1 x.2
  | scopes xs => xs.map fun x => .addScope x.1 x.2
  | principals xs => xs.map fun x => .addPrincipal x.1 x.2
  | roles as => as.map .addRole
  | attributes xs => xs.map fun x => .addAttribute x.1 x.2
  | groups as => as.map .addAttributeGroup

/-- Tenants handed to `AddTenants`. -/
def marks : Bulk → List Nat
  | tenants as => as
  | _ => []

end Bulk

theorem run_map {α : Type} (f : α → MOp) (g : Mgr → α → Out Mgr) (h : ∀ w x, (f x).apply w = g w x) (xs : List α)
    (w : Mgr) : MOp.run w (xs.map f) = Out.loop g w xs := by
  induction xs generalizing w with
  | nil => rfl
  | cons x xs ih => rw [List.map_cons, MOp.run, Out.loop, h]; exact congrArg _ (funext fun w => ih w)

theorem loop_pure {σ α : Type} (f : σ → α → σ) (xs : List α) (s : σ) :
    Out.loop (fun s x => .ok (f s x)) s xs = .ok (xs.foldl f s) := by
  induction xs generalizing s with
  | nil => rfl
  | cons x xs ih => rw [Out.loop, Out.bind_ok, ih, List.foldl_cons]

/-- C78. A bulk call is the same as the single calls, one per argument, in order. So everything proved about
histories of single calls holds for histories with bulk calls. -/
theorem C78_singles (w : Mgr) (op : Bulk) : op.apply w = MOp.run w op.singles := by
  cases op with
  | tenants as => exact (run_map .addTenant (fun w a => (w.addTenant a).map (·.2)) (fun _ _ => rfl) as w).symm
  | roles as => exact (run_map .addRole (fun w a => (w.addRole a).map (·.2)) (fun _ _ => rfl) as w).symm
  | groups as => exact (run_map .addAttributeGroup (fun w a => (w.addAttributeGroup a).map (·.2)) (fun _ _ => rfl) as w).symm
  | namespaces xs =>
    rw [Bulk.singles, run_map _ (fun w x => .ok (w.addNamespace x.1 x.2).2) (fun _ _ => rfl), loop_pure]; rfl
  | scopes xs =>
    rw [Bulk.singles, run_map _ (fun w x => .ok (w.addScope x.1 x.2).2) (fun _ _ => rfl), loop_pure]; rfl
  | principals xs =>
    rw [Bulk.singles, run_map _ (fun w x => .ok (w.addPrincipal x.1 x.2).2) (fun _ _ => rfl), loop_pure]; rfl
  | attributes xs =>
    rw [Bulk.singles, run_map _ (fun w x => .ok (w.addAttribute x.1 x.2).2) (fun _ _ => rfl), loop_pure]; rfl

theorem withIds_cons {α : Type} {objs : List α} {ident : α → Str} {a : Nat} {t : α} (as : List Nat)
    (h : objs[a]? = some t) : withIds objs ident (a :: as) = (ident t, a) :: withIds objs ident as := by
  simp [withIds, h]

theorem withIds_set {α : Type} {objs : List α} {ident : α → Str} {a : Nat} {t t' : α} (as : List Nat)
    (h : objs[a]? = some t) (hi : ident t' = ident t) : withIds (objs.set a t') ident as = withIds objs ident as := by
  unfold withIds
  congr 1
  funext b
  rw [List.getElem?_set]
  have hlt := (List.getElem?_eq_some_iff.1 h).1
  by_cases e : a = b
  · subst e; rw [h]; simp [hi, hlt]
  · simp [e]

theorem Mgr.addTenants_eq {as : List Nat} {w w' : Mgr} (h : w.addTenants as = .ok w') :
    ∃ T : List TenantObj, w' = { w with
        tobjs := T, tenants := (withIds w.tobjs (·.id) as).foldl (fun m x => (register m x.1 x.2).2) w.tenants } ∧
      ∀ b : Nat, T[b]? = (w.tobjs[b]?).map fun t => if b ∈ as then { t with managed := true } else t := by
  induction as generalizing w with
  | nil =>
    cases h
    exact ⟨_, rfl, fun b => by simp⟩
  | cons a as ih =>
    rw [Mgr.addTenants, Out.loop, Out.bind_eq_ok] at h
    obtain ⟨w1, h1, h2⟩ := h
    unfold Mgr.addTenant at h1
    split at h1
    · cases h1
    · rename_i t ht
      cases h1
      obtain ⟨T, e, hT⟩ := ih h2
      refine ⟨T, ?_, fun b => ?_⟩
      · rw [e, withIds_cons as ht]
        simp only [List.foldl_cons]
        rw [withIds_set (t' := { t with managed := true }) as ht rfl]
      · rw [hT, List.getElem?_set]
        have hlt := (List.getElem?_eq_some_iff.1 ht).1
        by_cases e : a = b
        · subst e
          simp only [ht, hlt, if_true, Option.map_some, List.mem_cons, true_or]
          split <;> rfl
        · have e' : b ≠ a := fun h => e h.symm
          simp only [e, e', if_false, List.mem_cons, false_or]

theorem Mgr.addRoles_eq {as : List Nat} {w w' : Mgr} (h : w.addRoles as = .ok w') :
    w' = { w with roles := (withIds w.heap.roles (·.id) as).foldl (fun m x => (register m x.1 x.2).2) w.roles } := by
  induction as generalizing w with
  | nil => cases h; rfl
  | cons a as ih =>
    rw [Mgr.addRoles, Out.loop, Out.bind_eq_ok] at h
    obtain ⟨w1, h1, h2⟩ := h
    unfold Mgr.addRole at h1
    split at h1
    · cases h1
    · rename_i t ht
      cases h1
      rw [ih h2, withIds_cons as ht]; rfl

theorem Mgr.addAttributeGroups_eq {as : List Nat} {w w' : Mgr} (h : w.addAttributeGroups as = .ok w') :
    w' = { w with attrGroups :=
      (withIds w.heap.groups (·.id) as).foldl (fun m x => (register m x.1 x.2).2) w.attrGroups } := by
  induction as generalizing w with
  | nil => cases h; rfl
  | cons a as ih =>
    rw [Mgr.addAttributeGroups, Out.loop, Out.bind_eq_ok] at h
    obtain ⟨w1, h1, h2⟩ := h
    unfold Mgr.addAttributeGroup at h1
    split at h1
    · cases h1
    · rename_i t ht
      cases h1
      rw [ih h2, withIds_cons as ht]; rfl

/-- C78. What a bulk registration does: in its own registry every id keeps its old object, or gets the first argument
with this id; the other registries, the rows, the roles and groups and the caches stay as they are; and `AddTenants`
puts exactly its arguments, the refused ones too, under management. -/
theorem C78_bulk {w w' : Mgr} {op : Bulk} (h : op.apply w = .ok w') :
    (∀ k id, (w'.reg k).get id =
      if k = op.kind then ((w.reg k).get id).or (firstWith id (op.items w)) else (w.reg k).get id) ∧
    (∀ b : Nat, w'.tobjs[b]? = (w.tobjs[b]?).map fun t => if b ∈ op.marks then { t with managed := true } else t) ∧
    w'.heap = w.heap ∧ w'.trie = w.trie ∧ w'.hierarchy = w.hierarchy ∧ w'.pcache = w.pcache ∧ w'.log = w.log := by
  have hid : ∀ b : Nat, w.tobjs[b]? = (w.tobjs[b]?).map fun t => if b ∈ ([] : List Nat) then { t with managed := true } else t := by
    intro b; cases w.tobjs[b]? <;> simp
  cases op with
  | tenants as =>
    obtain ⟨T, rfl, hT⟩ := Mgr.addTenants_eq h
    refine ⟨fun k id => ?_, hT, rfl, rfl, rfl, rfl, rfl⟩
    cases k <;> first | rfl | exact get_foldl_register _ _ _
  | roles as =>
    rw [Mgr.addRoles_eq h]
    refine ⟨fun k id => ?_, hid, rfl, rfl, rfl, rfl, rfl⟩
    cases k <;> first | rfl | exact get_foldl_register _ _ _
  | groups as =>
    rw [Mgr.addAttributeGroups_eq h]
    refine ⟨fun k id => ?_, hid, rfl, rfl, rfl, rfl, rfl⟩
    cases k <;> first | rfl | exact get_foldl_register _ _ _
  | namespaces xs =>
    have e : ∀ w : Mgr, w.addNamespaces xs =
        { w with namespaces := xs.foldl (fun m x => (register m x.1 x.2).2) w.namespaces } := by
      clear h hid
      induction xs with
      | nil => exact fun _ => rfl
      | cons x xs ih => exact fun w => ih _
    cases h
    rw [e]
    refine ⟨fun k id => ?_, hid, rfl, rfl, rfl, rfl, rfl⟩
    cases k <;> first | rfl | exact get_foldl_register _ _ _
  | scopes xs =>
    have e : ∀ w : Mgr, w.addScopes xs =
        { w with scopes := xs.foldl (fun m x => (register m x.1 x.2).2) w.scopes } := by
      clear h hid
      induction xs with
      | nil => exact fun _ => rfl
      | cons x xs ih => exact fun w => ih _
    cases h
    rw [e]
    refine ⟨fun k id => ?_, hid, rfl, rfl, rfl, rfl, rfl⟩
    cases k <;> first | rfl | exact get_foldl_register _ _ _
  | principals xs =>
    have e : ∀ w : Mgr, w.addPrincipals xs =
        { w with principals := xs.foldl (fun m x => (register m x.1 x.2).2) w.principals } := by
      clear h hid
      induction xs with
      | nil => exact fun _ => rfl
      | cons x xs ih => exact fun w => ih _
    cases h
    rw [e]
    refine ⟨fun k id => ?_, hid, rfl, rfl, rfl, rfl, rfl⟩
    cases k <;> first | rfl | exact get_foldl_register _ _ _
  | attributes xs =>
    have e : ∀ w : Mgr, w.addAttributes xs =
        { w with attributes := ((Bulk.attributes xs).items w).foldl (fun m x => (register m x.1 x.2).2) w.attributes } := by
      clear h hid
      induction xs with
      | nil => exact fun _ => rfl
      | cons x xs ih =>
        intro w
        have e1 : x.1.toStr = x.1.resource ++ 32 :: x.1.action := by
          show x.1.resource ++ str " " ++ x.1.action = _
          rw [show str " " = [32] from by decide +kernel]; simp
        rw [Bulk.items, List.map_cons, List.foldl_cons, ← e1]
        exact ih _
    cases h
    rw [e]
    refine ⟨fun k id => ?_, hid, rfl, rfl, rfl, rfl, rfl⟩
    cases k <;> first | rfl | exact get_foldl_register _ _ _

/-- C78. The call returns whenever its arguments are pointers to existing objects. -/
theorem C78_returns (w : Mgr) (op : Bulk) (h : match op with
    | .tenants as => ∀ a ∈ as, a < w.tobjs.length
    | .roles as => ∀ a ∈ as, a < w.heap.roles.length
    | .groups as => ∀ a ∈ as, a < w.heap.groups.length
    | _ => True) : ∃ w', op.apply w = .ok w' := by
  cases op with
  | tenants as =>
    show ∃ w', w.addTenants as = .ok w'
    induction as generalizing w with
    | nil => exact ⟨w, rfl⟩
    | cons a as ih =>
      rw [Mgr.addTenants, Out.loop, Mgr.addTenant, List.getElem?_eq_getElem (h a (by simp))]
      exact ih _ (fun b hb => by simpa using h b (by simp [hb]))
  | roles as =>
    show ∃ w', w.addRoles as = .ok w'
    induction as generalizing w with
    | nil => exact ⟨w, rfl⟩
    | cons a as ih =>
      rw [Mgr.addRoles, Out.loop, Mgr.addRole, List.getElem?_eq_getElem (h a (by simp))]
      exact ih _ (fun b hb => h b (by simp [hb]))
  | groups as =>
    show ∃ w', w.addAttributeGroups as = .ok w'
    induction as generalizing w with
    | nil => exact ⟨w, rfl⟩
    | cons a as ih =>
      rw [Mgr.addAttributeGroups, Out.loop, Mgr.addAttributeGroup, List.getElem?_eq_getElem (h a (by simp))]
      exact ih _ (fun b hb => h b (by simp [hb]))
  | _ => exact ⟨_, rfl⟩

/-- C78. The lookups after any history give the object of the first registration of the id. -/
theorem C78_lookup {ops : List MOp} {w : Mgr} (h : MOp.run {} ops = .ok w) (id : Str) :
    w.getTenant id = firstObj .tenant id (MOp.attempts {} ops) ∧
    w.getNamespace id = firstObj .namespace_ id (MOp.attempts {} ops) ∧
    w.getScope id = firstObj .scope id (MOp.attempts {} ops) ∧
    w.getPrincipal id = firstObj .principal id (MOp.attempts {} ops) ∧
    w.getRole id = firstObj .role id (MOp.attempts {} ops) ∧
    w.getAttribute id = firstObj .attribute id (MOp.attempts {} ops) ∧
    w.getAttributeGroup id = firstObj .group id (MOp.attempts {} ops) :=
  ⟨C22_first_wins h .tenant id, C22_first_wins h .namespace_ id, C22_first_wins h .scope id,
   C22_first_wins h .principal id, C22_first_wins h .role id, C22_first_wins h .attribute id,
   C22_first_wins h .group id⟩

/-- Two tenants with one id: the first argument is stored, both are managed; an attribute is found by its text. -/
example : ∃ w, MOp.run {} [.newTenant (str "t"), .newTenant (str "t"), .newTenant (str "u")] = .ok w ∧
    ((Bulk.tenants [1, 0]).apply w).Chk fun w' =>
      w'.getTenant (str "t") = some 1 ∧ w'.getTenant (str "u") = none ∧ w'.tobjs.map (·.managed) = [true, true, false] ∧
      ((Bulk.attributes [(newAttribute (str "/x") (str "GET"), 7)]).apply w').Chk fun w2 =>
        w2.getAttribute (str "/x GET") = some 7 ∧ w2.summaryOf.attrs = 1 := Out.chk_ok (by decide +kernel)

/-! ## NewAttributes -/

/-- C78. `NewAttributes` makes one attribute per action, in order, all on the resource. -/
theorem C78_newAttributes (resource : Str) (actions : List Str) :
    (newAttributes resource actions).length = actions.length ∧
    ∀ i : Nat, (newAttributes resource actions)[i]? = (actions[i]?).map fun a => ⟨resource, a⟩ := by
  have e : ∀ (l : List Str) (acc : List Attr), l.foldl (fun attrs action => attrs ++ [newAttribute resource action]) acc =
      acc ++ l.map fun a => ⟨resource, a⟩ := by
    intro l
    induction l with
    | nil => simp
    | cons a l ih => intro acc; rw [List.foldl_cons, ih]; simp [newAttribute]
  have e' : newAttributes resource actions = actions.map fun a => ⟨resource, a⟩ := e actions []
  rw [e']
  exact ⟨by simp, fun i => by simp⟩

example : newAttributes (str "/x") [str "GET", str "PUT"] = [⟨str "/x", str "GET"⟩, ⟨str "/x", str "PUT"⟩] := by
  decide +kernel

/-! ## Summaries -/

/-- The number of distinct ids offered to a registry. -/
def distinctIds (k : Kind) (l : List (Kind × Str × Nat)) : Nat :=
  ((l.filter (fun e => e.1 = k)).map (fun e => e.2.1)).dedup.length

/-- C78. After any history, each field of `Summary` is the number of distinct ids registered of that kind, and
`SummaryMap` has exactly the same seven numbers under the JSON names. -/
theorem C78_summary {ops : List MOp} {w : Mgr} (h : MOp.run {} ops = .ok w) :
    w.summaryOf.tenants = distinctIds .tenant (MOp.attempts {} ops) ∧
    w.summaryOf.principals = distinctIds .principal (MOp.attempts {} ops) ∧
    w.summaryOf.namespaces = distinctIds .namespace_ (MOp.attempts {} ops) ∧
    w.summaryOf.scopes = distinctIds .scope (MOp.attempts {} ops) ∧
    w.summaryOf.roles = distinctIds .role (MOp.attempts {} ops) ∧
    w.summaryOf.attrGroups = distinctIds .group (MOp.attempts {} ops) ∧
    w.summaryOf.attrs = distinctIds .attribute (MOp.attempts {} ops) ∧
    (w.summaryMap.map (·.1)).Nodup ∧ w.summaryMap.length = 7 ∧
    w.summaryMap.get (str "tenants") = some w.summaryOf.tenants ∧
    w.summaryMap.get (str "principals") = some w.summaryOf.principals ∧
    w.summaryMap.get (str "namespaces") = some w.summaryOf.namespaces ∧
    w.summaryMap.get (str "scopes") = some w.summaryOf.scopes ∧
    w.summaryMap.get (str "roles") = some w.summaryOf.roles ∧
    w.summaryMap.get (str "attribute_groups") = some w.summaryOf.attrGroups ∧
    w.summaryMap.get (str "attributes") = some w.summaryOf.attrs := by
  refine ⟨C22_count h .tenant, C22_count h .principal, C22_count h .namespace_, C22_count h .scope, C22_count h .role,
    C22_count h .group, C22_count h .attribute, ?_, rfl, ?_⟩
  · show [str "tenants", str "namespaces", str "scopes", str "principals", str "roles", str "attribute_groups",
      str "attributes"].Nodup
    decide +kernel
  · unfold Mgr.summaryMap Mgr.summaryOf
    simp only [GoMap.get]
    refine ⟨?_, ?_, ?_, ?_, ?_, ?_, ?_⟩ <;> simp (decide := true) only [if_true, if_false]

/-- Bytes that are not decimal digits. -/
def NotDigit (c : UInt8) : Prop := ¬ (48 ≤ c ∧ c ≤ 57)

theorem natText_digits (n : Nat) : ∀ c ∈ str (toString n), 48 ≤ c ∧ c ≤ 57 := by
  obtain ⟨c, cs, h, -, hr⟩ := natText n
  have e : str (toString n) = c :: cs := h
  rw [e]
  have : ∀ (l : Str) (acc : Nat), (readNat acc l).isSome → ∀ c ∈ l, 48 ≤ c ∧ c ≤ 57 := by
    intro l
    induction l with
    | nil => simp
    | cons c l ih =>
      intro acc hs d hd
      rw [readNat] at hs
      split at hs
      · rename_i hc
        rcases List.mem_cons.1 hd with rfl | hd
        · exact hc
        · exact ih _ hs d hd
      · cases hs
  exact this _ 0 (by rw [hr]; rfl)

theorem digits_cancel {a b x y : Str} {c d : UInt8} (ha : ∀ c ∈ a, 48 ≤ c ∧ c ≤ 57) (hb : ∀ c ∈ b, 48 ≤ c ∧ c ≤ 57)
    (hc : NotDigit c) (hd : NotDigit d) (h : a ++ c :: x = b ++ d :: y) : a = b ∧ x = y := by
  induction a generalizing b with
  | nil =>
    cases b with
    | nil => exact ⟨rfl, (List.cons.inj h).2⟩
    | cons e b => exact absurd ((List.cons.inj h).1 ▸ hb e (by simp)) hc
  | cons f a ih =>
    cases b with
    | nil => exact absurd ((List.cons.inj h).1 ▸ ha f (by simp)) hd
    | cons e b =>
      obtain ⟨h1, h2⟩ := List.cons.inj h
      obtain ⟨h3, h4⟩ := ih (fun c hc => ha c (by simp [hc])) (fun c hc => hb c (by simp [hc])) h2
      exact ⟨by rw [h1, h3], h4⟩

theorem nat_cancel {m n : Nat} {x y : Str} {c d : UInt8} (hc : NotDigit c) (hd : NotDigit d)
    (h : str (toString m) ++ c :: x = str (toString n) ++ d :: y) : m = n ∧ x = y := by
  obtain ⟨h1, h2⟩ := digits_cancel (natText_digits m) (natText_digits n) hc hd h
  exact ⟨Int.ofNat.inj ((C67_int_text (.ofNat m)).1 (.ofNat n) h1), h2⟩

theorem Summary.text_eq (s : Summary) : s.text =
    str "{\"tenants\":" ++ (str (toString s.tenants) ++ 44 :: (str "\"principals\":" ++ (str (toString s.principals) ++ 44 ::
    (str "\"namespaces\":" ++ (str (toString s.namespaces) ++ 44 :: (str "\"scopes\":" ++ (str (toString s.scopes) ++ 44 ::
    (str "\"roles\":" ++ (str (toString s.roles) ++ 44 :: (str "\"attribute_groups\":" ++
    (str (toString s.attrGroups) ++ 44 :: (str "\"attributes\":" ++ (str (toString s.attrs) ++ [125]))))))))))))) := by
  have e1 : str "{\"tenants\":" = str "{" ++ (str "\"" ++ (str "tenants" ++ str "\":")) := by decide +kernel
  have e2 : str "\"principals\":" = str "\"" ++ (str "principals" ++ str "\":") := by decide +kernel
  have e3 : str "\"namespaces\":" = str "\"" ++ (str "namespaces" ++ str "\":") := by decide +kernel
  have e4 : str "\"scopes\":" = str "\"" ++ (str "scopes" ++ str "\":") := by decide +kernel
  have e5 : str "\"roles\":" = str "\"" ++ (str "roles" ++ str "\":") := by decide +kernel
  have e6 : str "\"attribute_groups\":" = str "\"" ++ (str "attribute_groups" ++ str "\":") := by decide +kernel
  have e7 : str "\"attributes\":" = str "\"" ++ (str "attributes" ++ str "\":") := by decide +kernel
  have ec : ∀ x : Str, 44 :: x = str "," ++ x := fun x => by rw [show str "," = [44] from by decide +kernel]; rfl
  have ed : ([125] : Str) = str "}" := by decide +kernel
  unfold Summary.text jsonCounts
  simp only [List.foldl_cons, List.foldl_nil, jsonField]
  rw [e1, e2, e3, e4, e5, e6, e7, ed]
  simp only [ec, List.append_assoc]

/-- C78. `String` writes the seven counts as a JSON object, in this order, and different counts give different texts. -/
theorem C78_text (s : Summary) :
    (s.text = str "{\"tenants\":" ++ str (toString s.tenants) ++ str ",\"principals\":" ++ str (toString s.principals) ++
      str ",\"namespaces\":" ++ str (toString s.namespaces) ++ str ",\"scopes\":" ++ str (toString s.scopes) ++
      str ",\"roles\":" ++ str (toString s.roles) ++ str ",\"attribute_groups\":" ++ str (toString s.attrGroups) ++
      str ",\"attributes\":" ++ str (toString s.attrs) ++ str "}") ∧
    ∀ s' : Summary, s.text = s'.text → s = s' := by
  constructor
  · rw [Summary.text_eq]
    have ec : ∀ x : Str, 44 :: x = str "," ++ x := fun x => by rw [show str "," = [44] from by decide +kernel]; rfl
    have ed : ([125] : Str) = str "}" := by decide +kernel
    rw [ed]
    rw [show str ",\"principals\":" = str "," ++ str "\"principals\":" from by decide +kernel,
      show str ",\"namespaces\":" = str "," ++ str "\"namespaces\":" from by decide +kernel,
      show str ",\"scopes\":" = str "," ++ str "\"scopes\":" from by decide +kernel,
      show str ",\"roles\":" = str "," ++ str "\"roles\":" from by decide +kernel,
      show str ",\"attribute_groups\":" = str "," ++ str "\"attribute_groups\":" from by decide +kernel,
      show str ",\"attributes\":" = str "," ++ str "\"attributes\":" from by decide +kernel]
    simp only [ec, List.append_assoc]
  · intro s' h
    have hc : NotDigit 44 := by unfold NotDigit; decide
    have hb : NotDigit 125 := by unfold NotDigit; decide
    rw [Summary.text_eq, Summary.text_eq] at h
    obtain ⟨h1, h⟩ := nat_cancel hc hc (List.append_cancel_left h)
    obtain ⟨h2, h⟩ := nat_cancel hc hc (List.append_cancel_left h)
    obtain ⟨h3, h⟩ := nat_cancel hc hc (List.append_cancel_left h)
    obtain ⟨h4, h⟩ := nat_cancel hc hc (List.append_cancel_left h)
    obtain ⟨h5, h⟩ := nat_cancel hc hc (List.append_cancel_left h)
    obtain ⟨h6, h⟩ := nat_cancel hc hc (List.append_cancel_left h)
    obtain ⟨h7, -⟩ := nat_cancel hb hb (List.append_cancel_left h)
    cases s; cases s'; simp_all

/-! ## GetImplicitScopesByPrincipal -/

/-- C78. `GetImplicitScopesByPrincipal` returns no rows whatever is stored. It panics on an argument that is not a
string; otherwise its only effects are those of `GetImplicitTenants` and one printed number per implicit tenant, the
number of that tenant's rows with a scope. -/
theorem C78_implicitScopes {w : Mgr} (inv : w.Inv) (o : Ord) (fuel : Nat) (site : List Val) (v : Val) :
    ((∀ p, v ≠ .str p) → w.implicitScopes o fuel site v = .panic) ∧
    ∀ data printed w', w.implicitScopes o fuel site v = .ok (data, printed, w') →
      data = [] ∧ ∃ p I, v = .str p ∧ w.implicitTenants o fuel (site ++ [.int 0]) p = .ok (I, w') ∧
        ∃ rows : Str → List Data, printed.Perm (I.map fun t => (rows t).length) ∧
          ∀ t, Lists w' (rows t) (fun d => d.tenant = .str t ∧ d.scope ≠ .nil) := by
  constructor
  · intro h
    cases v with
    | str p => exact absurd rfl (h p)
    | _ => rfl
  · intro data printed w' h
    cases v with
    | str p =>
      rw [Mgr.implicitScopes, Out.map_eq_ok] at h
      obtain ⟨⟨I, w1⟩, h1, h2⟩ := h
      cases h2
      refine ⟨rfl, p, I, rfl, h1, fun t => w1.scopesByTenant o (site ++ [.int 2, .str t]) (.str t),
        (o.perm _ _ _).map _, fun t => ?_⟩
      have inv' : w1.Inv := (Mgr.implicitTenants_inv inv h1).1
      have := (C62_queries inv' o (site ++ [.int 2, .str t]) .nil (.str t) .nil .nil).2.2.2.1
      refine ⟨this.1, fun d => (this.2 d).trans ?_⟩
      simp [Is]
    | _ => cases h

/-- Two tenants, one of them with a scope: the call prints 1 and 0 and returns nothing. -/
example : ∃ w, MOp.run {} [.newTenant (str "t"), .newTenant (str "u"), .addTenant 0, .addTenant 1,
      .addPrincipal (str "p") 0, .role (.newRole (str "r")), .addRole 0, .addScope (str "s") 0,
      .tAddPrincipal 0 (str "p") false [str "r"], .tAddPrincipal 1 (str "p") false [str "r"], .tAddScope 0 (str "s")] = .ok w ∧
    (w.implicitScopes .fwd 9 [] (.str (str "p"))).Chk fun x => x.1 = [] ∧ x.2.1 = [1, 0] := Out.chk_ok (by decide +kernel)

/-! ## Package v1 -/

/-- A bulk registration of v1; namespaces are objects here. -/
inductive Bulk1 where
  | tenants (as : List Nat) | namespaces (as : List Nat) | scopes (xs : List (Str × Nat))
  | principals (xs : List (Str × Nat)) | roles (as : List Nat) | attributes (xs : List (Attr × Nat))
  | groups (as : List Nat)

namespace Bulk1

def kind : Bulk1 → Kind
  | tenants _ => .tenant | namespaces _ => .namespace_ | scopes _ => .scope | principals _ => .principal
  | roles _ => .role | attributes _ => .attribute | groups _ => .group

/-- The call. -/
def apply (w : V1) : Bulk1 → Out V1
  | tenants as => w.addTenants as
  | namespaces as => w.addNamespaces as
  | scopes xs => .ok (w.addScopes xs)
  | principals xs => .ok (w.addPrincipals xs)
  | roles as => w.addRoles as
  | attributes xs => .ok (w.addAttributes xs)
  | groups as => w.addAttributeGroups as

/-- Ids and objects of the arguments. -/
def items (w : V1) : Bulk1 → List (Str × Nat)
  | tenants as => withIds w.tobjs (·.id) as
  | namespaces as => withIds w.nsobjs (·.id) as
  | scopes xs => xs
  | principals xs => xs
  | roles as => withIds w.heap.roles (·.id) as
  | attributes xs => xs.map fun x => (x.1.resource ++ 32 :: x.1.action, x.2)
  | groups as => withIds w.heap.groups (·.id) as

/-- One single registration per argument, in order. -/
def singles : Bulk1 → List V1Op
  | tenants as => as.map .addTenant
  | namespaces as => as.map .addNamespace
  | scopes xs => xs.map fun x => .addScope x.1 x.2
  | principals xs => xs.map fun x => .addPrincipal x.1 x.2
  | roles as => as.map .addRole
  | attributes xs => xs.map fun x => .addAttribute x.1 x.2
  | groups as => as.map .addAttributeGroup

/-- Tenants handed to `AddTenants`. -/
def marks : Bulk1 → List Nat
  | tenants as => as
  | _ => []

end Bulk1

theorem run1_map {α : Type} (f : α → V1Op) (g : V1 → α → Out V1) (h : ∀ w x, (f x).apply w = g w x) (xs : List α)
    (w : V1) : V1Op.run w (xs.map f) = Out.loop g w xs := by
  induction xs generalizing w with
  | nil => rfl
  | cons x xs ih => rw [List.map_cons, V1Op.run, Out.loop, h]; exact congrArg _ (funext fun w => ih w)

/-- C78. v1: a bulk call is the same as the single calls, one per argument, in order. -/
theorem C78_v1_singles (w : V1) (op : Bulk1) : op.apply w = V1Op.run w op.singles := by
  cases op with
  | tenants as => exact (run1_map .addTenant (fun w a => (w.addTenant a).map (·.2)) (fun _ _ => rfl) as w).symm
  | namespaces as =>
    exact (run1_map .addNamespace (fun w a => (w.addNamespace a).map (·.2)) (fun _ _ => rfl) as w).symm
  | roles as => exact (run1_map .addRole (fun w a => (w.addRole a).map (·.2)) (fun _ _ => rfl) as w).symm
  | groups as =>
    exact (run1_map .addAttributeGroup (fun w a => (w.addAttributeGroup a).map (·.2)) (fun _ _ => rfl) as w).symm
  | scopes xs =>
    rw [Bulk1.singles, run1_map _ (fun w x => .ok (w.addScope x.1 x.2).2) (fun _ _ => rfl), loop_pure]; rfl
  | principals xs =>
    rw [Bulk1.singles, run1_map _ (fun w x => .ok (w.addPrincipal x.1 x.2).2) (fun _ _ => rfl), loop_pure]; rfl
  | attributes xs =>
    rw [Bulk1.singles, run1_map _ (fun w x => .ok (w.addAttribute x.1 x.2).2) (fun _ _ => rfl), loop_pure]; rfl

/-- Repeated first-wins registration. -/
abbrev regAll (m : GoMap Str Nat) (xs : List (Str × Nat)) : GoMap Str Nat :=
  xs.foldl (fun m x => (register m x.1 x.2).2) m

namespace V1

theorem addScope_eq (w : V1) (id : Str) (obj : Nat) :
    (w.addScope id obj).2 = { w with scopes := (register w.scopes id obj).2 } := by
  unfold V1.addScope register; cases w.scopes.get id <;> rfl

theorem addPrincipal_eq (w : V1) (id : Str) (obj : Nat) :
    (w.addPrincipal id obj).2 = { w with principals := (register w.principals id obj).2 } := by
  unfold V1.addPrincipal register; cases w.principals.get id <;> rfl

theorem addAttribute_eq (w : V1) (a : Attr) (obj : Nat) :
    (w.addAttribute a obj).2 = { w with attrs := (register w.attrs (a.resource ++ 32 :: a.action) obj).2 } := by
  have e1 : a.toStr = a.resource ++ 32 :: a.action := by
    show a.resource ++ str " " ++ a.action = _
    rw [show str " " = [32] from by decide +kernel]; simp
  unfold V1.addAttribute register; rw [e1]; cases w.attrs.get (a.resource ++ 32 :: a.action) <;> rfl

theorem addScopes_eq (xs : List (Str × Nat)) (w : V1) : w.addScopes xs = { w with scopes := regAll w.scopes xs } := by
  induction xs generalizing w with
  | nil => rfl
  | cons x xs ih =>
    rw [V1.addScopes, List.foldl_cons, addScope_eq]; exact ih _

theorem addPrincipals_eq (xs : List (Str × Nat)) (w : V1) :
    w.addPrincipals xs = { w with principals := regAll w.principals xs } := by
  induction xs generalizing w with
  | nil => rfl
  | cons x xs ih =>
    rw [V1.addPrincipals, List.foldl_cons, addPrincipal_eq]; exact ih _

theorem addAttributes_eq (xs : List (Attr × Nat)) (w : V1) :
    w.addAttributes xs = { w with attrs := regAll w.attrs ((Bulk1.attributes xs).items w) } := by
  induction xs generalizing w with
  | nil => rfl
  | cons x xs ih =>
    rw [V1.addAttributes, List.foldl_cons, addAttribute_eq]; exact ih _

theorem addRoles_eq {as : List Nat} {w w' : V1} (h : w.addRoles as = .ok w') :
    w' = { w with roles := regAll w.roles (withIds w.heap.roles (·.id) as) } := by
  induction as generalizing w with
  | nil => cases h; rfl
  | cons a as ih =>
    rw [V1.addRoles, Out.loop, Out.bind_eq_ok] at h
    obtain ⟨w1, h1, h2⟩ := h
    unfold V1.addRole at h1
    split at h1
    · cases h1
    · rename_i t ht
      have e : w1 = { w with roles := (register w.roles t.id a).2 } := by
        unfold register
        split at h1 <;> cases h1 <;> simp_all
      subst e
      rw [ih h2, withIds_cons as ht]; rfl

theorem addNamespaces_eq {as : List Nat} {w w' : V1} (h : w.addNamespaces as = .ok w') :
    w' = { w with namespaces := regAll w.namespaces (withIds w.nsobjs (·.id) as) } := by
  induction as generalizing w with
  | nil => cases h; rfl
  | cons a as ih =>
    rw [V1.addNamespaces, Out.loop, Out.bind_eq_ok] at h
    obtain ⟨w1, h1, h2⟩ := h
    unfold V1.addNamespace at h1
    split at h1
    · cases h1
    · rename_i t ht
      have e : w1 = { w with namespaces := (register w.namespaces t.id a).2 } := by
        unfold register
        split at h1 <;> cases h1 <;> simp_all
      subst e
      rw [ih h2, withIds_cons as ht]; rfl

theorem addAttributeGroups_eq {as : List Nat} {w w' : V1} (h : w.addAttributeGroups as = .ok w') :
    w' = { w with attrGroups := regAll w.attrGroups (withIds w.heap.groups (·.id) as) } := by
  induction as generalizing w with
  | nil => cases h; rfl
  | cons a as ih =>
    rw [V1.addAttributeGroups, Out.loop, Out.bind_eq_ok] at h
    obtain ⟨w1, h1, h2⟩ := h
    unfold V1.addAttributeGroup at h1
    split at h1
    · cases h1
    · rename_i t ht
      have e : w1 = { w with attrGroups := (register w.attrGroups t.id a).2 } := by
        unfold register
        split at h1 <;> cases h1 <;> simp_all
      subst e
      rw [ih h2, withIds_cons as ht]; rfl

theorem addTenants_eq {as : List Nat} {w w' : V1} (h : w.addTenants as = .ok w') :
    ∃ T : List T1Obj, w' = { w with tobjs := T, tenants := regAll w.tenants (withIds w.tobjs (·.id) as) } ∧
      ∀ b : Nat, T[b]? = (w.tobjs[b]?).map fun t => if b ∈ as then { t with managed := true } else t := by
  induction as generalizing w with
  | nil =>
    cases h
    exact ⟨_, rfl, fun b => by simp⟩
  | cons a as ih =>
    rw [V1.addTenants, Out.loop, Out.bind_eq_ok] at h
    obtain ⟨w1, h1, h2⟩ := h
    unfold V1.addTenant at h1
    split at h1
    · cases h1
    · rename_i t ht
      have e : w1 = { w with tobjs := w.tobjs.set a { t with managed := true }
                             tenants := (register w.tenants t.id a).2 } := by
        unfold register
        simp only at h1
        split at h1 <;> cases h1 <;> simp_all
      subst e
      obtain ⟨T, e, hT⟩ := ih h2
      refine ⟨T, ?_, fun b => ?_⟩
      · rw [e, withIds_cons as ht]
        simp only [List.foldl_cons]
        rw [withIds_set (t' := { t with managed := true }) as ht rfl]
      · rw [hT, List.getElem?_set]
        have hlt := (List.getElem?_eq_some_iff.1 ht).1
        by_cases e : a = b
        · subst e
          simp only [ht, hlt, if_true, Option.map_some, List.mem_cons, true_or]
          split <;> rfl
        · have e' : b ≠ a := fun h => e h.symm
          simp only [e, e', if_false, List.mem_cons, false_or]

end V1

/-- C78. v1: what a bulk registration does: in its own registry every id keeps its old object, or gets the first
argument with this id; everything else stays as it is, except that `AddTenants` puts exactly its arguments under
management. -/
theorem C78_v1_bulk {w w' : V1} {op : Bulk1} (h : op.apply w = .ok w') :
    (∀ k id, (w'.reg k).get id =
      if k = op.kind then ((w.reg k).get id).or (firstWith id (op.items w)) else (w.reg k).get id) ∧
    (∀ b : Nat, w'.tobjs[b]? = (w.tobjs[b]?).map fun t => if b ∈ op.marks then { t with managed := true } else t) ∧
    w'.heap = w.heap ∧ w'.nsobjs = w.nsobjs ∧ w'.tps = w.tps ∧ w'.log = w.log := by
  have hid : ∀ b : Nat, w.tobjs[b]? = (w.tobjs[b]?).map fun t => if b ∈ ([] : List Nat) then { t with managed := true } else t := by
    intro b; cases w.tobjs[b]? <;> simp
  cases op with
  | tenants as =>
    obtain ⟨T, rfl, hT⟩ := V1.addTenants_eq h
    refine ⟨fun k id => ?_, hT, rfl, rfl, rfl, rfl⟩
    cases k <;> first | rfl | exact get_foldl_register _ _ _
  | namespaces as =>
    rw [V1.addNamespaces_eq h]
    refine ⟨fun k id => ?_, hid, rfl, rfl, rfl, rfl⟩
    cases k <;> first | rfl | exact get_foldl_register _ _ _
  | roles as =>
    rw [V1.addRoles_eq h]
    refine ⟨fun k id => ?_, hid, rfl, rfl, rfl, rfl⟩
    cases k <;> first | rfl | exact get_foldl_register _ _ _
  | groups as =>
    rw [V1.addAttributeGroups_eq h]
    refine ⟨fun k id => ?_, hid, rfl, rfl, rfl, rfl⟩
    cases k <;> first | rfl | exact get_foldl_register _ _ _
  | scopes xs =>
    cases h; rw [V1.addScopes_eq]
    refine ⟨fun k id => ?_, hid, rfl, rfl, rfl, rfl⟩
    cases k <;> first | rfl | exact get_foldl_register _ _ _
  | principals xs =>
    cases h; rw [V1.addPrincipals_eq]
    refine ⟨fun k id => ?_, hid, rfl, rfl, rfl, rfl⟩
    cases k <;> first | rfl | exact get_foldl_register _ _ _
  | attributes xs =>
    cases h; rw [V1.addAttributes_eq]
    refine ⟨fun k id => ?_, hid, rfl, rfl, rfl, rfl⟩
    cases k <;> first | rfl | exact get_foldl_register _ _ _

/-- C78. v1: lookups give the object of the first registration; summary fields count distinct registered ids, and
`SummaryMap` has the same seven numbers. -/
theorem C78_v1_lookup {ops : List V1Op} {w : V1} (h : V1Op.run {} ops = .ok w) :
    (∀ id, w.getTenant id = firstObj .tenant id (V1Op.attempts {} ops) ∧
      w.getNamespace id = firstObj .namespace_ id (V1Op.attempts {} ops) ∧
      w.getScope id = firstObj .scope id (V1Op.attempts {} ops) ∧
      w.getPrincipal id = firstObj .principal id (V1Op.attempts {} ops) ∧
      w.getRole id = firstObj .role id (V1Op.attempts {} ops) ∧
      w.getAttribute id = firstObj .attribute id (V1Op.attempts {} ops) ∧
      w.getAttributeGroup id = firstObj .group id (V1Op.attempts {} ops)) ∧
    w.summaryOf.tenants = distinctIds .tenant (V1Op.attempts {} ops) ∧
    w.summaryOf.principals = distinctIds .principal (V1Op.attempts {} ops) ∧
    w.summaryOf.namespaces = distinctIds .namespace_ (V1Op.attempts {} ops) ∧
    w.summaryOf.scopes = distinctIds .scope (V1Op.attempts {} ops) ∧
    w.summaryOf.roles = distinctIds .role (V1Op.attempts {} ops) ∧
    w.summaryOf.attrGroups = distinctIds .group (V1Op.attempts {} ops) ∧
    w.summaryOf.attrs = distinctIds .attribute (V1Op.attempts {} ops) ∧
    (w.summaryMap.map (·.1)).Nodup ∧ w.summaryMap.length = 7 ∧
    w.summaryMap.get (str "tenants") = some w.summaryOf.tenants ∧
    w.summaryMap.get (str "principals") = some w.summaryOf.principals ∧
    w.summaryMap.get (str "namespaces") = some w.summaryOf.namespaces ∧
    w.summaryMap.get (str "scopes") = some w.summaryOf.scopes ∧
    w.summaryMap.get (str "roles") = some w.summaryOf.roles ∧
    w.summaryMap.get (str "attribute_groups") = some w.summaryOf.attrGroups ∧
    w.summaryMap.get (str "attributes") = some w.summaryOf.attrs := by
  refine ⟨fun id => ⟨V1.C70_first_wins h .tenant id, V1.C70_first_wins h .namespace_ id, V1.C70_first_wins h .scope id,
    V1.C70_first_wins h .principal id, V1.C70_first_wins h .role id, V1.C70_first_wins h .attribute id,
    V1.C70_first_wins h .group id⟩, V1.C70_count h .tenant, V1.C70_count h .principal, V1.C70_count h .namespace_,
    V1.C70_count h .scope, V1.C70_count h .role, V1.C70_count h .group, V1.C70_count h .attribute, ?_, rfl, ?_⟩
  · show [str "tenants", str "namespaces", str "scopes", str "principals", str "roles", str "attribute_groups",
      str "attributes"].Nodup
    decide +kernel
  · unfold V1.summaryMap V1.summaryOf
    simp only [GoMap.get]
    refine ⟨?_, ?_, ?_, ?_, ?_, ?_, ?_⟩ <;> simp (decide := true) only [if_true, if_false]

/-- Two namespaces with one id: the first argument is stored. -/
example : ∃ w, V1Op.run {} [.newNamespace (str "n"), .newNamespace (str "n")] = .ok w ∧
    ((Bulk1.namespaces [1, 0]).apply w).Chk fun w' =>
      w'.getNamespace (str "n") = some 1 ∧ w'.summaryOf = ⟨0, 0, 1, 0, 0, 0, 0⟩ := Out.chk_ok (by decide +kernel)

end Verif
