import Verif.Props.Locked
import Verif.Props.Manager

/-!
# Calls on other roles and groups (C131)

The answers of a role depend on the role, its descendants and the groups these have.  A call on none of them, the creation of roles
and groups, calls that are refused because the role is locked, and locking and unlocking change no answer.
-/

namespace Verif
open Spec

/-- Role `r` or a descendant of it has the group at `ga`. -/
def UsesGroup (h : RHeap) (r ga : Nat) : Prop := ∃ d ro k, (d = r ∨ Desc h r d) ∧ h.roles[d]? = some ro ∧ (k, ga) ∈ ro.perms

/-- The role at `q` can be changed. -/
def Open (h : RHeap) (q : Nat) : Prop := ∃ qo, h.roles[q]? = some qo ∧ qo.lock = false

/-- The call is on an unlocked role that is `r` or a descendant of it, on a group one of these has, or it adds permissions through
another unlocked role to a group one of these has. -/
def RoleOp.Concerns (h : RHeap) (r : Nat) : RoleOp → Prop
  | .addDesc q _ | .addGroup q _ => (q = r ∨ Desc h r q) ∧ Open h q
  | .addPerm q g _ => Open h q ∧ ((q = r ∨ Desc h r q) ∨ ∃ qo ga, h.roles[q]? = some qo ∧ (g, ga) ∈ qo.perms ∧ UsesGroup h r ga)
  | .addAttrs ga _ => UsesGroup h r ga
  | _ => False

/-- No call of the history concerns `r` when it is made. -/
def Unconcerned : RHeap → List RoleOp → Nat → Prop
  | _, [], _ => True
  | h, op :: ops, r => ¬ op.Concerns h r ∧ ∀ h1, op.apply h = .ok h1 → Unconcerned h1 ops r

/-- `S` is closed under descendants, and `G` has the groups of the roles in `S`. -/
structure ClosedIn (h : RHeap) (S G : Nat → Prop) : Prop where
  lt : ∀ s, S s → s < h.roles.length
  closed : ∀ s ro e, S s → h.roles[s]? = some ro → e ∈ ro.desc → S e.2
  groups : ∀ s ro e, S s → h.roles[s]? = some ro → e ∈ ro.perms → G e.2

/-- The roles in `S` are the same up to their locks, the groups in `G` are the same. -/
structure Alike (h h' : RHeap) (S G : Nat → Prop) : Prop where
  roles : ∀ s, S s → ∀ ro, h.roles[s]? = some ro → ∃ l, h'.roles[s]? = some { ro with lock := l }
  groups : ∀ g, G g → h'.groups[g]? = h.groups[g]?

theorem Alike.same {h h' : RHeap} {S G : Nat → Prop} (h1 : ∀ s, S s → h'.roles[s]? = h.roles[s]?) (h2 : ∀ g, G g → h'.groups[g]? = h.groups[g]?) :
    Alike h h' S G := ⟨fun s hs ro hr => ⟨ro.lock, (h1 s hs).trans hr⟩, h2⟩

theorem closed_reach {h : RHeap} (ok : Spec.RHeap.OK h) {r : Nat} (hr : r < h.roles.length) :
    ClosedIn h (fun d => d = r ∨ Desc h r d) (UsesGroup h r) := by
  have next : ∀ {s e : Nat}, (s = r ∨ Desc h r s) → Child h s e → Desc h r e := by
    rintro s e (rfl | hs) hc
    · exact .child hc
    · clear hr
      induction hs with
      | child h1 => exact .step h1 (.child hc)
      | step h1 _ ih => exact .step h1 (ih hc)
  refine ⟨?_, fun s ro e hs h1 h2 => .inr (next hs ⟨ro, e.1, h1, h2⟩), fun s ro e hs h1 h2 => ⟨s, ro, e.1, hs, h1, h2⟩⟩
  rintro s (rfl | hs)
  · exact hr
  · have last : ∀ {a b : Nat}, Desc h a b → b < h.roles.length := by
      intro a b hd
      induction hd with
      | child h1 => obtain ⟨ro, k, h2, h3⟩ := h1; exact ok.desc ro (List.mem_of_getElem? h2) _ h3
      | step _ _ ih => exact ih
    exact last hs

section
variable {h h' : RHeap} {S G : Nat → Prop} (cl : ClosedIn h S G) (al : Alike h h' S G) {o : Ord}
include cl al

theorem Alike.descRoles {n : Nat} {site : List Val} {r : Nat} (hr : S r) : h'.descRoles o n site r = h.descRoles o n site r := by
  induction n generalizing site r with
  | zero => rfl
  | succ n ih =>
    have hro := List.getElem?_eq_getElem (cl.lt r hr)
    obtain ⟨l, hl⟩ := al.roles r hr _ hro
    rw [RHeap.descRoles_succ, RHeap.descRoles_succ, hl, hro]
    dsimp only
    generalize h.roles[r]'(cl.lt r hr) = ro at *
    have : ∀ (l : List (Str × Nat)) (i : Nat), (∀ e ∈ l, S e.2) →
        Out.collectI (fun i (e : Str × Nat) => (h'.descRoles o n (site ++ [.int i]) e.2).map (fun ds => e.2 :: ds)) i l =
        Out.collectI (fun i (e : Str × Nat) => (h.descRoles o n (site ++ [.int i]) e.2).map (fun ds => e.2 :: ds)) i l := by
      intro l
      induction l with
      | nil => intro i _; rfl
      | cons e l ihl =>
        intro i hl
        rw [Out.collectI, Out.collectI, ih (hl e (by simp)), ihl (i + 1) (fun x hx => hl x (by simp [hx]))]
    exact this _ _ (fun e he => cl.closed r ro e hr hro (Ord.mem_ord.1 he))

omit al in
theorem ClosedIn.desc {r d : Nat} (hr : S r) (hd : Desc h r d) : S d := by
  induction hd with
  | child hc => obtain ⟨ro, k, h1, h2⟩ := hc; exact cl.closed _ ro _ hr h1 h2
  | step hc _ ih => obtain ⟨ro, k, h1, h2⟩ := hc; exact ih (cl.closed _ ro _ hr h1 h2)

theorem Alike.has {group name : Str} {allowed : List Str} {n : Nat} {site : List Val} {r : Nat} (hr : S r) :
    h'.has o group name allowed n site r = h.has o group name allowed n site r := by
  induction n generalizing site r with
  | zero => rfl
  | succ n ih =>
    have hro := List.getElem?_eq_getElem (cl.lt r hr)
    obtain ⟨l, hl⟩ := al.roles r hr _ hro
    rw [RHeap.has, RHeap.has, hl, hro]
    dsimp only
    generalize h.roles[r]'(cl.lt r hr) = ro at *
    cases hg : ro.perms.get group with
    | none => rfl
    | some ga =>
      simp only
      rw [al.groups ga (cl.groups r ro (group, ga) hr hro (GoMap.get_some_mem hg)), Alike.descRoles cl al hr]
      cases h.groups[ga]? with
      | none => rfl
      | some g =>
        simp only
        congr 2
        funext matched
        congr 1
        cases hds : h.descRoles o n (site ++ [.int 1]) r with
        | panic => rfl
        | diverge => rfl
        | ok ds =>
          simp only [Out.bind_ok]
          apply anyI_congr
          intro j d hd
          have hS : S d := cl.desc hr ((RHeap.descRoles_mem hds d).1 hd)
          have hdo := List.getElem?_eq_getElem (cl.lt d hS)
          obtain ⟨l, hl⟩ := al.roles d hS _ hdo
          rw [hl, hdo]
          dsimp only
          rw [ih hS]

omit cl in
theorem Alike.ownImplicit {site : List Val} (l : List (Str × Nat)) (hl : ∀ e ∈ l, G e.2) (i : Nat) (acc : GoMap Str (List Attr)) :
    h'.ownImplicit o site i l acc = h.ownImplicit o site i l acc := by
  induction l generalizing i acc with
  | nil => rfl
  | cons e l ih =>
    obtain ⟨k, ga⟩ := e
    rw [RHeap.ownImplicit, RHeap.ownImplicit, al.groups ga (hl (k, ga) (by simp))]
    cases h.groups[ga]? with
    | none => rfl
    | some g => exact ih (fun e he => hl e (by simp [he])) _ _

theorem Alike.allImplicit {n : Nat} {site : List Val} {r : Nat} {acc : GoMap Str (List Attr)} (hr : S r) :
    h'.allImplicit o n site r acc = h.allImplicit o n site r acc := by
  induction n generalizing site r acc with
  | zero => rfl
  | succ n ih =>
    have hro := List.getElem?_eq_getElem (cl.lt r hr)
    obtain ⟨l, hl⟩ := al.roles r hr _ hro
    rw [RHeap.allImplicit, RHeap.allImplicit, hl, hro]
    dsimp only
    generalize h.roles[r]'(cl.lt r hr) = ro at *
    rw [Alike.ownImplicit al _ (fun e he => cl.groups r ro e hr hro (Ord.mem_ord.1 he)), Alike.descRoles cl al hr]
    congr 1
    funext acc
    cases hds : h.descRoles o n (site ++ [.int 1]) r with
    | panic => rfl
    | diverge => rfl
    | ok ds =>
      simp only [Out.bind_ok]
      have : ∀ (ds : List Nat) (i : Nat) (acc : GoMap Str (List Attr)), (∀ d ∈ ds, S d) →
          RHeap.foldRoles (fun i d acc => h'.allImplicit o n (site ++ [.int 2, .int i]) d acc) i ds acc =
          RHeap.foldRoles (fun i d acc => h.allImplicit o n (site ++ [.int 2, .int i]) d acc) i ds acc := by
        intro ds
        induction ds with
        | nil => intro i acc _; rfl
        | cons d ds ihd =>
          intro i acc hd
          rw [RHeap.foldRoles, RHeap.foldRoles, ih (hd d (by simp))]
          congr 1
          funext acc
          exact ihd _ _ fun x hx => hd x (by simp [hx])
      exact this ds 0 acc fun d hd => cl.desc hr ((RHeap.descRoles_mem hds d).1 hd)

theorem Alike.getPermissions {site : List Val} {r : Nat} (hr : S r) : h'.getPermissions o site r = h.getPermissions o site r := by
  have hro := List.getElem?_eq_getElem (cl.lt r hr)
  obtain ⟨l, hl⟩ := al.roles r hr _ hro
  rw [RHeap.getPermissions, RHeap.getPermissions, hl, hro]
  dsimp only
  generalize h.roles[r]'(cl.lt r hr) = ro at *
  have : ∀ (l : List (Str × Nat)) (i : Nat) (acc : GoMap Str (List Attr)), (∀ e ∈ l, G e.2) →
      RHeap.getPermissions.loop h' o site i l acc = RHeap.getPermissions.loop h o site i l acc := by
    intro l
    induction l with
    | nil => intro i acc _; rfl
    | cons e l ih =>
      intro i acc hl
      obtain ⟨k, ga⟩ := e
      rw [RHeap.getPermissions.loop, RHeap.getPermissions.loop, al.groups ga (hl (k, ga) (by simp))]
      cases h.groups[ga]? with
      | none => rfl
      | some g => exact ih _ _ fun e he => hl e (by simp [he])
  exact this _ _ _ fun e he => cl.groups r ro e hr hro (Ord.mem_ord.1 he)

end

/-- One call that does not concern `r`. -/
theorem alike_step {h h' : RHeap} (ok : Spec.RHeap.OK h) {r : Nat} (hr : r < h.roles.length) {op : RoleOp} (hc : ¬ op.Concerns h r)
    (ha : op.apply h = .ok h') : Alike h h' (fun d => d = r ∨ Desc h r d) (UsesGroup h r) := by
  have cl := closed_reach ok hr
  have glt : ∀ g, UsesGroup h r g → g < h.groups.length := by
    rintro g ⟨d, ro, k, _, h1, h2⟩
    exact ok.perms ro (List.mem_of_getElem? h1) _ h2
  have other : ∀ {q : Nat} {qo : RoleObj}, h.roles[q]? = some qo → qo.lock ≠ true → ¬ ((q = r ∨ Desc h r q) ∧ Open h q) →
      ∀ s, (s = r ∨ Desc h r s) → q ≠ s := fun h1 h2 h3 s hs e => h3 ⟨e ▸ hs, _, h1, by simpa using h2⟩
  cases op with
  | newRole id => cases ha; exact .same (fun s hs => get_append_lt (cl.lt s hs)) fun _ _ => rfl
  | newGroup id => cases ha; exact .same (fun _ _ => rfl) fun g hg => get_append_lt (glt g hg)
  | addDesc q ds =>
    obtain ⟨⟨e, h2⟩, h3, rfl⟩ := Out.map_eq_ok.1 ha
    rw [RHeap.addDescendant] at h3
    split at h3
    · cases h3
    · rename_i qo hqo
      split at h3
      · cases h3; exact .same (fun _ _ => rfl) fun _ _ => rfl
      · rename_i hl
        obtain ⟨h4, h5, h6⟩ := Out.map_eq_ok.1 h3
        cases h6
        exact .same (fun s hs => (addDesc_loop_role (other hqo hl hc s hs) h5).1) fun _ _ => by rw [addDesc_loop_groups h5]
  | addPerm q g as =>
    obtain ⟨⟨e, h2⟩, h3, rfl⟩ := Out.map_eq_ok.1 ha
    rw [RHeap.addPermission] at h3
    split at h3
    · cases h3
    · rename_i qo hqo
      split at h3
      · cases h3; exact .same (fun _ _ => rfl) fun _ _ => rfl
      · rename_i hl
        have ho : Open h q := ⟨qo, hqo, by simpa using hl⟩
        have hne := other hqo hl (fun h => hc ⟨ho, .inl h.1⟩)
        split at h3
        · rename_i ga hga
          split at h3
          · cases h3
          · cases h3
            exact .same (fun s hs => set_same (hne s hs)) fun x hx => set_same fun e =>
              hc ⟨ho, .inr ⟨qo, ga, hqo, GoMap.get_some_mem hga, e ▸ hx⟩⟩
        · cases h3
          exact .same (fun s hs => set_same (hne s hs)) fun x hx => get_append_lt (glt x hx)
  | addGroup q ga =>
    obtain ⟨⟨e, h2⟩, h3, rfl⟩ := Out.map_eq_ok.1 ha
    rw [RHeap.addPermissionResourceGroup] at h3
    split at h3
    · rename_i qo g hqo hg
      split at h3
      · cases h3; exact .same (fun _ _ => rfl) fun _ _ => rfl
      · rename_i hl
        split at h3
        · cases h3; exact .same (fun _ _ => rfl) fun _ _ => rfl
        · cases h3
          exact .same (fun s hs => set_same (other hqo hl hc s hs)) fun _ _ => rfl
    · cases h3
  | addAttrs ga as =>
    change h.groupAddAttributes ga as = .ok h' at ha
    rw [RHeap.groupAddAttributes] at ha
    split at ha
    · cases ha
    · cases ha; exact .same (fun _ _ => rfl) fun x hx => set_same fun e => hc (e ▸ hx)
  | lock q b =>
    change h.setLock q b = .ok h' at ha
    rw [RHeap.setLock] at ha
    split at ha
    · cases ha
    · rename_i qo hqo
      cases ha
      refine ⟨fun s _ ro hs => ?_, fun _ _ => rfl⟩
      by_cases hq : q = s
      · subst hq
        rw [hqo] at hs; cases hs
        exact ⟨b, List.getElem?_set_self (RHeap.lt_of_get hqo)⟩
      · exact ⟨ro.lock, (set_same hq).trans hs⟩

/-- C131. Calls that do not concern a role when they are made change none of its answers, none of its listings and none of its
descendants, whatever they are and in whatever order maps are visited; a question that panics or does not end still does. -/
theorem C131_frame {ops : List RoleOp} {h h' : RHeap} (ok : Spec.RHeap.OK h) {r : Nat} (hr : r < h.roles.length)
    (hu : Unconcerned h ops r) (hrun : RoleOp.run h ops = .ok h') (o : Ord) (n : Nat) (site : List Val) :
    (∀ group name allowed, h'.has o group name allowed n site r = h.has o group name allowed n site r) ∧
    h'.descRoles o n site r = h.descRoles o n site r ∧
    (∀ acc, h'.allImplicit o n site r acc = h.allImplicit o n site r acc) ∧
    h'.getPermissions o site r = h.getPermissions o site r := by
  induction ops generalizing h with
  | nil => cases hrun; exact ⟨fun _ _ _ => rfl, rfl, fun _ => rfl, rfl⟩
  | cons op ops ih =>
    rw [RoleOp.run, Out.bind_eq_ok] at hrun
    obtain ⟨h1, h2, h3⟩ := hrun
    have cl := closed_reach ok hr
    have al := alike_step ok hr hu.1 h2
    obtain ⟨l, hl⟩ := al.roles r (.inl rfl) _ (List.getElem?_eq_getElem hr)
    obtain ⟨a1, a2, a3, a4⟩ := ih (RoleOp.apply_ok ok h2) (RHeap.lt_of_get hl) (hu.2 h1 h2) h3
    exact ⟨fun g k a => (a1 g k a).trans (Alike.has cl al (.inl rfl)), a2.trans (Alike.descRoles cl al (.inl rfl)),
      fun acc => (a3 acc).trans (Alike.allImplicit cl al (.inl rfl)), a4.trans (Alike.getPermissions cl al (.inl rfl))⟩

/-- C131. Neither making roles and groups nor locking and unlocking ever concerns a role that is there. -/
theorem C131_new_lock {ops : List RoleOp} {h : RHeap} {r : Nat}
    (hk : ∀ op ∈ ops, (∃ id, op = .newRole id) ∨ (∃ id, op = .newGroup id) ∨ ∃ q b, op = .lock q b) : Unconcerned h ops r := by
  induction ops generalizing h with
  | nil => trivial
  | cons op ops ih =>
    refine ⟨?_, fun h1 _ => ih fun x hx => hk x (by simp [hx])⟩
    rcases hk op (by simp) with ⟨_, rfl⟩ | ⟨_, rfl⟩ | ⟨_, _, rfl⟩ <;> exact id

/-- Two roles with a group of their own each; role `b` gets role `a` as a descendant and another permission, and role `a` is locked.
Neither call concerns `a`; a call on `a` does. -/
example : ∃ h, RoleOp.run {} [.newRole (str "a"), .newRole (str "b"), .addPerm 0 (str "g") [⟨str "/x", str "GET"⟩],
      .addPerm 1 (str "g") [⟨str "/y", str "GET"⟩]] = .ok h ∧
    Unconcerned h [.addDesc 1 [0], .addPerm 1 (str "g") [⟨str "/z", str "GET"⟩], .lock 0 true] 0 ∧
    (∃ h', RoleOp.run h [.addDesc 1 [0], .addPerm 1 (str "g") [⟨str "/z", str "GET"⟩], .lock 0 true] = .ok h') ∧
    (RoleOp.addPerm 0 (str "g") [⟨str "/z", str "GET"⟩]).Concerns h 0 := by
  have none : ∀ {h : RHeap} {ro : RoleObj} {d : Nat}, h.roles[0]? = some ro → ro.desc = [] → ¬ Desc h 0 d := by
    intro h ro d h1 h2 h3
    cases h3 with
    | child h4 => obtain ⟨_, _, h5, h6⟩ := h4; rw [h1] at h5; cases h5; rw [h2] at h6; cases h6
    | step h4 _ => obtain ⟨_, _, h5, h6⟩ := h4; rw [h1] at h5; cases h5; rw [h2] at h6; cases h6
  refine ⟨_, rfl, ⟨?_, fun h1 e => ?_⟩, ⟨_, rfl⟩, ⟨_, rfl, rfl⟩, .inl (.inl rfl)⟩
  · rintro ⟨h | h, _⟩
    · cases h
    · exact none rfl rfl h
  · cases e
    refine ⟨?_, fun h1 e => ?_⟩
    · rintro ⟨_, (h | h) | ⟨qo, ga, h1, h2, d, ro, k, h3 | h3, h4, h5⟩⟩
      · cases h
      · exact none rfl rfl h
      · subst h3
        cases h1; cases h4
        simp [GoMap.set] at h2 h5
        omega
      · exact none rfl rfl h3
    · cases e
      exact ⟨id, fun _ _ => trivial⟩

/-- The claim without regard to groups that roles share: calls on other roles, that are not descendants, change no answer of a role. -/
def C131_unshared : Prop := ∀ (h h' : RHeap) (r q : Nat) (g : Str) (as : List Attr), Spec.RHeap.OK h → r < h.roles.length → q ≠ r → ¬ Desc h r q →
  RoleOp.run h [.addPerm q g as] = .ok h' → ∀ o group name allowed n site,
  h'.has o group name allowed n site r = h.has o group name allowed n site r

/-- C131. It is false: the group of the other role may be the group of this one. -/
theorem C131_unshared_false : ¬ C131_unshared := by
  intro hf
  obtain ⟨h, h1, h2, h3, h4⟩ : ∃ h, RoleOp.run {} [.newRole (str "a"), .newRole (str "b"), .newGroup (str "g"), .addGroup 0 0, .addGroup 1 0] = .ok h ∧
      (h.roles.length = 2 ∧ (h.roles[0]?.map RoleObj.desc) = some [] ∧ ((RoleOp.run h [.addPerm 1 (str "g") [⟨str "/x", str "GET"⟩]]).bind fun h' =>
        (h'.has .fwd (str "g") (str "/x GET") [] 9 [] 0).bind fun b => (h.has .fwd (str "g") (str "/x GET") [] 9 [] 0).map fun c => (b, c)) = .ok (true, false)) :=
    Out.chk_ok (by decide +kernel)
  have ok := RoleOp.run_ok Spec.RHeap.OK.empty h1
  obtain ⟨h', h5, h6⟩ := Out.bind_eq_ok.1 h4
  have hd : ¬ Desc h 0 1 := by
    obtain ⟨ro, hro, hde⟩ := Option.map_eq_some_iff.1 h3
    intro h7
    cases h7 with
    | child h8 => obtain ⟨_, _, h9, h10⟩ := h8; rw [hro] at h9; cases h9; rw [hde] at h10; cases h10
    | step h8 _ => obtain ⟨_, _, h9, h10⟩ := h8; rw [hro] at h9; cases h9; rw [hde] at h10; cases h10
  rw [hf h h' 0 1 _ _ ok (by omega) (by decide) hd h5] at h6
  cases hh : h.has .fwd (str "g") (str "/x GET") [] 9 [] 0 with
  | ok b => rw [hh] at h6; cases h6
  | panic => rw [hh] at h6; cases h6
  | diverge => rw [hh] at h6; cases h6

end Verif
