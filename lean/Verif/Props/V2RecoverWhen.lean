import Verif.Props.V2Recover

/-!
# Which calls of package v2 panic (C119)

`Panics` says of every call but the decisions when it panics, for calls whose addresses lead to objects.
-/

namespace Verif
namespace RQ
open V2 Spec

variable {w w' : V2} {α β : Type}

/-- A pointer is nil or leads to one of `n` objects. -/
def There (n : Nat) (p : Option Nat) : Prop := ∀ a, p = some a → a < n

/-- The pointers among the arguments are nil or lead to objects. -/
def Proper (w : V2) : NCall → Prop
  | .addPermission a _ | .removePermission a _ => There w.dag.objs.length a
  | .addRoles l => ∀ q ∈ l, There w.dag.objs.length q
  | .addNamespace c _ _ | .addScopes c _ _ | .setStatus c _ => There w.tobjs.length c
  | .addChildTenant c ds => There w.tobjs.length c ∧ ∀ q ∈ ds, There w.tobjs.length q
  | .addTenants l => ∀ q ∈ l, There w.tobjs.length q
  | .setExpiry i _ _ | .setExpiryDuration i _ _ _ | .clearExpiry i => There w.prs.length i
  | .addPrincipalRole l => ∀ q ∈ l, There w.prs.length q
  | _ => True

/-- The tenant has the namespace. -/
def HasNamespace (w : V2) (p : Option Nat) (n : Str) : Prop := ∃ c t s, p = some c ∧ w.tobjs[c]? = some t ∧ t.namespaces.get n = some s

/-- When a call panics. -/
def Panics (w : V2) : NCall → Prop
  | .addPermission a ps | .removePermission a ps => a = none ∨ none ∈ ps
  | .addRoles l | .addTenants l | .addPrincipalRole l => none ∈ l
  | .addNamespace p _ _ | .setStatus p _ | .clearExpiry p => p = none
  | .addScopes c n scs => c = none ∨ HasNamespace w c n ∧ none ∈ scs
  | .addChildTenant c ds => c = none ∨ none ∈ ds
  | .setExpiry i now e => i = none ∧ now ≤ e
  | .setExpiryDuration i parse _ a => i = none ∧ ∀ s, a = .str s → ∃ d, parse s = some d
  | .removePrincipalRole target => none ∈ w.userRoles ∧ ¬ NamesNothing target
  | _ => False

/-- A loop over pointers whose body panics at nil only. -/
theorem each_nil {P : V2 → Prop} {f : Option β → Rec Unit} {l : List (Option β)}
    (hok : ∀ x, some x ∈ l → ∀ w, P w → ∃ w', f (some x) w = (.ok (), w') ∧ P w') (hbad : ∀ w, P w → (f none w).1 = .panic) (hw : P w) :
    (RQ.each f l w).1 = .panic ↔ none ∈ l := by
  induction l generalizing w with
  | nil => exact ⟨fun h => (by cases h), fun h => (by cases h)⟩
  | cons q l ih =>
    cases q with
    | none =>
      refine ⟨fun _ => List.mem_cons_self .., fun _ => ?_⟩
      rw [RQ.each, Rec.bind, hbad w hw]
    | some x =>
      obtain ⟨w1, h1, p1⟩ := hok x (List.mem_cons_self ..) w hw
      rw [RQ.each, Rec.bind, h1]
      refine (ih (fun y hy => hok y (List.mem_cons_of_mem _ hy)) p1).trans ⟨fun h => List.mem_cons_of_mem _ h, fun h => ?_⟩
      rcases List.mem_cons.1 h with h | h
      · cases h
      · exact h

theorem each_ok {P : V2 → Prop} {f : β → Rec Unit} {l : List β} (h : ∀ x ∈ l, ∀ w, P w → ∃ w', f x w = (.ok (), w') ∧ P w') (hw : P w) :
    ∃ w', RQ.each f l w = (.ok (), w') ∧ P w' := by
  induction l generalizing w with
  | nil => exact ⟨w, rfl, hw⟩
  | cons x l ih =>
    obtain ⟨w1, h1, p1⟩ := h x (List.mem_cons_self ..) w hw
    rw [RQ.each, Rec.bind, h1]
    exact ih (fun y hy => h y (List.mem_cons_of_mem _ hy)) p1

theorem lt_get {l : List α} {i : Nat} (h : i < l.length) : ∃ x, l[i]? = some x := ⟨_, List.getElem?_eq_getElem h⟩

theorem get_lt {l : List α} {i : Nat} {x : α} (h : l[i]? = some x) : i < l.length := (List.getElem?_eq_some_iff.1 h).1

theorem perms_nil_iff {g : List Str → Str → List Str} {a : Nat} {ps : List (Option Perm2)} (ha : a < w.dag.objs.length) :
    (RQ.each (onePerm g a) ps w).1 = .panic ↔ none ∈ ps := by
  refine each_nil (P := fun v => v.dag.objs.length = w.dag.objs.length) (fun x _ v hv => ?_) (fun v _ => rfl) rfl
  obtain ⟨r, hr⟩ := lt_get (l := v.dag.objs) (hv ▸ ha)
  exact ⟨_, onePerm_eq hr, by simp [hv]⟩

theorem dfsLoop_panic {f : Str → List Str → Out (Bool × List Str)} (hf : ∀ c V, f c V ≠ .panic) (cs V : List Str) : Dag.dfsLoop f cs V ≠ .panic := by
  induction cs generalizing V with
  | nil => intro h; cases h
  | cons c cs ih =>
    rw [Dag.dfsLoop]
    cases h : f c V with
    | ok x => show (if x.1 then _ else _) ≠ _; split <;> [(intro h; cases h); exact ih _]
    | panic => exact absurd h (hf c V)
    | diverge => intro h; cases h

theorem dfs_panic (d : Dag) (n : Nat) (r : Str) (V : List Str) : d.dfs n r V ≠ .panic := by
  induction n generalizing r V with
  | zero => intro h; cases h
  | succ n ih =>
    rw [Dag.dfs]
    split
    · intro h; cases h
    · exact dfsLoop_panic ih _ _

theorem onRow_iff {p : Option Nat} {f : PR → PR} (hp : There w.prs.length p) : (onRow p f w).1 = .panic ↔ p = none := by
  cases p with
  | none => exact ⟨fun _ => rfl, fun _ => rfl⟩
  | some i =>
    obtain ⟨u, hu⟩ := lt_get (hp i rfl)
    rw [onRow, deref_some, ret_bind, rowAt_bind, V2.prAt_eq_ok.2 ⟨i, rfl, hu⟩]
    exact ⟨fun h => (by cases h), fun h => (by cases h)⟩

/-- C119. Which calls panic, for every call but the decisions. -/
theorem C119_when {c : NCall} (inv : Inv w) (hp : Proper w c) (ha : ∀ e fuel site r, c ≠ .authorize e fuel site r)
    (hc : ∀ e fuel site r roles, c ≠ .can e fuel site r roles) : (c.go w).1 = .panic ↔ Panics w c := by
  cases c with
  | newRole n => exact ⟨fun h => (by cases h), fun h => h.elim⟩
  | newTenant id ns => exact ⟨fun h => (by cases h), fun h => h.elim⟩
  | setDefaultTenant t => exact ⟨fun h => (by cases h), fun h => h.elim⟩
  | newPrincipalRole u => exact ⟨fun h => (by cases h), fun h => h.elim⟩
  | addPermission p ps =>
    cases p with
    | none => exact ⟨fun _ => .inl rfl, fun _ => rfl⟩
    | some a =>
      obtain ⟨r, hr⟩ := lt_get (hp a rfl)
      show (RQ.addPermission (some a) ps w).1 = _ ↔ _
      rw [RQ.addPermission, deref_some, ret_bind, roleAt_bind, hr]
      exact (perms_nil_iff (g := addStr) (hp a rfl)).trans ⟨.inr, fun h => h.elim (fun h => by cases h) id⟩
  | removePermission p ps =>
    cases p with
    | none => exact ⟨fun _ => .inl rfl, fun _ => rfl⟩
    | some a =>
      obtain ⟨r, hr⟩ := lt_get (hp a rfl)
      show (RQ.removePermission (some a) ps w).1 = _ ↔ _
      rw [RQ.removePermission, deref_some, ret_bind, roleAt_bind, hr]
      exact (perms_nil_iff (g := fun l x => l.filter (· ≠ x)) (hp a rfl)).trans ⟨.inr, fun h => h.elim (fun h => by cases h) id⟩
  | addRoles l =>
    refine each_nil (f := oneRole) (P := fun v => v.dag.objs = w.dag.objs) (fun x hx v hv => ?_) (fun v _ => rfl) rfl
    obtain ⟨r, hr⟩ := lt_get (l := v.dag.objs) (i := x) (by rw [hv]; exact hp _ hx x rfl)
    rw [oneRole, deref_some, ret_bind, roleAt_bind, hr]
    exact ⟨_, rfl, hv⟩
  | addChildRole fuel parent cs =>
    refine ⟨fun h => ?_, fun h => h.elim⟩
    have h : (RQ.addChildRole fuel parent cs w).1 = .panic := h
    rw [RQ.addChildRole] at h
    cases hd : w.dag.addChildRole fuel parent cs with
    | ok r => rw [hd] at h; cases h
    | diverge => rw [hd] at h; cases h
    | panic =>
      rw [Dag.addChildRole, Dag.checkCircular] at hd
      cases hl : Dag.dfsLoop (w.dag.dfs fuel) cs [parent] with
      | ok r => rw [hl] at hd; cases hd
      | diverge => rw [hl] at hd; cases hd
      | panic => exact absurd hl (dfsLoop_panic (fun c V => dfs_panic _ _ c V) _ _)
  | addNamespace p n d =>
    cases p with
    | none => exact ⟨fun _ => rfl, fun _ => rfl⟩
    | some c =>
      refine ⟨fun h => ?_, fun h => (by cases h)⟩
      obtain ⟨t, ht⟩ := lt_get (hp c rfl)
      have := (C119_panics (w := w) (.addNamespace c n d)).1 h
      rw [V2Op.apply, V2.tAddNamespace, V2.withT, ht] at this
      cases this
  | addScopes p n scs =>
    cases p with
    | none => exact ⟨fun _ => .inl rfl, fun _ => rfl⟩
    | some c =>
      obtain ⟨t, ht⟩ := lt_get (hp c rfl)
      show (RQ.addScopes (some c) n scs w).1 = _ ↔ _
      rw [RQ.addScopes, deref_some, ret_bind, tenantAt_bind, ht]
      dsimp only
      cases hn : t.namespaces.get n with
      | none =>
        refine ⟨fun h => (by cases h), ?_⟩
        rintro (h | ⟨⟨_, t', s, e, h1, h2⟩, _⟩)
        · cases h
        · cases e; rw [ht] at h1; cases h1; rw [hn] at h2; cases h2
      | some s =>
        have : HasNamespace w (some c) n := ⟨c, t, s, rfl, ht, hn⟩
        refine Iff.trans ?_ ⟨fun h => .inr ⟨this, h⟩, fun h => h.elim (fun h => by cases h) fun h => h.2⟩
        refine each_nil (f := oneScope c n) (P := fun v => v.tobjs.length = w.tobjs.length) (fun x _ v hv => ?_) (fun v _ => rfl) rfl
        obtain ⟨t', ht'⟩ := lt_get (l := v.tobjs) (i := c) (by rw [hv]; exact hp c rfl)
        rw [oneScope, deref_some, ret_bind, tenantAt_bind, ht']
        exact ⟨_, rfl, by simp [V2.setT, hv]⟩
  | addChildTenant p ds =>
    cases p with
    | none => exact ⟨fun _ => .inl rfl, fun _ => rfl⟩
    | some c =>
      refine Iff.trans ?_ ⟨fun h => .inr h, fun h => h.elim (fun h => by cases h) id⟩
      refine each_nil (f := oneChild c) (P := fun v => v.tobjs.length = w.tobjs.length) (fun x hx v hv => ?_) (fun v _ => rfl) rfl
      obtain ⟨t', ht'⟩ := lt_get (l := v.tobjs) (i := c) (by rw [hv]; exact hp.1 c rfl)
      obtain ⟨d', hd'⟩ := lt_get (l := v.tobjs) (i := x) (by rw [hv]; exact hp.2 _ hx x rfl)
      rw [oneChild, deref_some, ret_bind, tenantAt_bind, hd']
      dsimp only
      rw [tenantAt_bind, ht']
      exact ⟨_, rfl, by simp [V2.setT, hv]⟩
  | setStatus p s =>
    cases p with
    | none => exact ⟨fun _ => rfl, fun _ => rfl⟩
    | some c =>
      obtain ⟨t, ht⟩ := lt_get (hp c rfl)
      show (RQ.setStatus (some c) s w).1 = _ ↔ _
      rw [RQ.setStatus, deref_some, ret_bind, tenantAt_bind, ht]
      exact ⟨fun h => (by cases h), fun h => (by cases h)⟩
  | addTenants l =>
    refine each_nil (f := RQ.addTenant) (P := fun v => v.tobjs = w.tobjs) (fun x hx v hv => ?_) (fun v _ => rfl) rfl
    obtain ⟨t, ht⟩ := lt_get (l := v.tobjs) (i := x) (by rw [hv]; exact hp _ hx x rfl)
    rw [RQ.addTenant, deref_some, ret_bind, tenantAt_bind, ht]
    dsimp only
    rw [write_bind]
    have hch : ∀ kd ∈ t.children, ∃ d, w.tobjs[kd.2]? = some d := fun kd hkd => by
      obtain ⟨d, hd, _⟩ := inv.children t (List.mem_of_getElem? (hv ▸ ht)) kd.1 kd.2 hkd
      exact ⟨d, hd⟩
    refine each_ok (P := fun v => v.tobjs = w.tobjs) (fun kd hkd u hu => ?_) hv
    obtain ⟨d, hd⟩ := hch kd hkd
    rw [tenantAt_bind, hu, hd]
    exact ⟨_, rfl, hu⟩
  | setExpiry p now e =>
    show (RQ.setExpiry p now e w).1 = _ ↔ _
    unfold RQ.setExpiry
    split
    · rename_i h; exact ⟨fun e => (by cases e), fun e => absurd h.2 (Int.not_lt.2 e.2)⟩
    · rename_i h
      exact (onRow_iff hp).trans ⟨fun e => ⟨e, Int.not_lt.1 fun h' => h ⟨e, h'⟩⟩, fun e => e.1⟩
  | setExpiryDuration p parse now a =>
    show (RQ.setExpiryDuration p parse now a w).1 = _ ↔ _
    unfold RQ.setExpiryDuration
    have key : a.unreadable parse = true ↔ ¬ ∀ s, a = .str s → ∃ d, parse s = some d := by
      cases a with
      | str s =>
        rw [DurArg.unreadable]
        cases hs : parse s with
        | none => exact ⟨fun _ h => (by obtain ⟨d, hd⟩ := h s rfl; rw [hs] at hd; cases hd), fun _ => rfl⟩
        | some d => exact ⟨fun h => (by cases h), fun h => absurd (fun s' e => by cases e; exact ⟨d, hs⟩) h⟩
      | _ => exact ⟨fun h => (by cases h), fun h => absurd (fun s' e => by cases e) h⟩
    split
    · rename_i h; exact ⟨fun e => (by cases e), fun e => absurd e.2 (key.1 h.2)⟩
    · rename_i h
      exact (onRow_iff hp).trans ⟨fun e => ⟨e, Classical.byContradiction fun h' => h ⟨e, key.2 h'⟩⟩, fun e => e.1⟩
  | clearExpiry p => exact onRow_iff hp
  | addPrincipalRole l =>
    refine each_nil (f := oneRow) (P := fun v => v.prs = w.prs) (fun x hx v hv => ?_) (fun v _ => by rw [oneRow_nil rfl]) rfl
    obtain ⟨u, hu⟩ := lt_get (l := v.prs) (i := x) (by rw [hv]; exact hp _ hx x rfl)
    have hu' : V2.prAt { v with userRoles := v.userRoles ++ [entry v (some x)] } (some x) = .ok u := V2.prAt_eq_ok.2 ⟨x, rfl, hu⟩
    rw [oneRow, write_bind, rowAt_bind, hu']
    exact ⟨_, rfl, hv⟩
  | removePrincipalRole target =>
    refine drop_panic.trans ?_
    have hag := remove_agrees (w := w) (target := target)
    by_cases ht : NamesNothing target
    · refine ⟨fun h => ?_, fun h => absurd ht h.2⟩
      by_cases hn : w.userRoles = []
      · obtain ⟨b, w1, h1⟩ := C48_returns inv (by rw [hn]; simp) target
        rw [h1] at hag
        rw [show removePrincipalRole target w = _ from hag] at h; cases h
      · rw [C48_remove_all inv hn ht] at hag
        rw [show removePrincipalRole target w = _ from hag] at h; cases h
    · by_cases hn : none ∈ w.userRoles
      · rw [C48_nil_panic hn ht] at hag
        exact ⟨fun _ => ⟨hn, ht⟩, fun _ => hag⟩
      · obtain ⟨b, w1, h1⟩ := C48_returns inv hn target
        rw [h1] at hag
        rw [show removePrincipalRole target w = _ from hag]
        exact ⟨fun h => (by cases h), fun h => absurd h.1 hn⟩
  | authorize e fuel site r => exact absurd rfl (ha e fuel site r)
  | can e fuel site r roles => exact absurd rfl (hc e fuel site r roles)

/-! ### Decisions -/

/-- The decision gets as far as reading the assignments. -/
def Reads (w : V2) (r : Req2) : Prop := named w r = [] ∨ ∃ c t ns, Target w r c ∧ w.tobjs[c]? = some t ∧ Place t r ns

theorem anyI_ne_panic {f : Nat → α → Out Bool} {xs : List α} {i : Nat} (hf : ∀ j x, f j x ≠ .panic) : Out.anyI f i xs ≠ .panic := by
  induction xs generalizing i with
  | nil => intro h; cases h
  | cons x xs ih =>
    rw [Out.anyI]
    cases h : f i x with
    | ok b => cases b <;> [exact ih; (intro h; cases h)]
    | panic => exact absurd h (hf i x)
    | diverge => intro h; cases h

/-- With nil in the list, a decision that does not read the assignments returns. -/
theorem decision_unread (inv : Inv w) (hnil : none ∈ w.userRoles) {e : Env} {site : List Val} {r : Req2} {body : Nat → Str → Str → V2 → Out (Bool × V2)}
    (hr : ¬ Reads w r) : ∃ x, (w.findTargets e.o site r).bind (w.dispatch r body) = .ok x := by
  rcases findTargets_panic_or (site := site) (r := r) inv hnil e.o with ⟨h, _⟩ | ⟨hn, ts, h⟩
  · exact absurd (.inl h) hr
  · rw [h, Out.bind_ok]
    cases ts with
    | none => exact ⟨_, rfl⟩
    | some cs =>
      have k1 := ((findTargets_spec inv h).1 cs rfl).2
      show ∃ x, V2.tenantLoop r body 0 cs w = _
      generalize 0 = k
      have hcs : ∀ c ∈ cs, Target w r c := fun c hc => (k1 c).1 hc
      clear h k1
      induction cs generalizing k with
      | nil => exact ⟨_, rfl⟩
      | cons c cs ih =>
        have hc := hcs c (List.mem_cons_self ..)
        obtain ⟨t, ht, _⟩ := target_registered inv hc
        rcases tenantLoop_cons (body := body) (k := k) (cs := cs) (r := r) (w := w) ht (inv.nsWF t (List.mem_of_getElem? ht)) with ⟨_, e⟩ | ⟨ns, hp, _⟩
        · rw [e]; exact ih _ fun d hd => hcs d (List.mem_cons_of_mem _ hd)
        · exact absurd (.inr ⟨c, t, ns, hc, ht, hp⟩) hr

/-- Without nil in the list `Authorize` does not panic. -/
theorem authorize_ne_panic (inv : Inv w) (hnil : none ∉ w.userRoles) {e : Env} {fuel : Nat} {site : List Val} {r : Req2} (hf : w.needs ≤ fuel) :
    w.authorize e fuel site r ≠ .panic := by
  obtain ⟨ts, h1⟩ := findTargets_total (site := site) inv hnil e.o r
  rw [authorize_eq, h1, Out.bind_ok]
  cases ts with
  | none => intro h; cases h
  | some cs =>
    have k1 := ((findTargets_spec inv h1).1 cs rfl).2
    have reg : ∀ c ∈ cs, ∃ t, w.tobjs[c]? = some t ∧ (t.id, c) ∈ w.tenants := fun c hc => target_registered inv ((k1 c).1 hc)
    show V2.tenantLoop r _ 0 cs w ≠ _
    generalize 0 = k
    suffices ∀ w1, Run (·.perms) w w1 → V2.tenantLoop r (V2.authBody e fuel site r) k cs w1 ≠ .panic from this w (.refl inv _)
    clear h1 k1
    intro w1 h0
    induction cs generalizing k w1 with
    | nil => intro h; cases h
    | cons c cs ih =>
      obtain ⟨t, ht, hm⟩ := reg c (List.mem_cons_self ..)
      have ih := ih fun d hd => reg d (List.mem_cons_of_mem _ hd)
      rcases tenantLoop_cons (body := V2.authBody e fuel site r) (k := k) (cs := cs) (r := r) (w := w1) (h0.frame.tobjs.symm ▸ ht)
        (inv.nsWF t (List.mem_of_getElem? ht)) with ⟨_, e1⟩ | ⟨ns, _, e1⟩
      · rw [e1]; exact ih _ _ h0
      · rw [e1]
        cases h : V2.authBody e fuel site r k t.id ns w1 with
        | ok x =>
          obtain ⟨b, w2⟩ := x
          have h2 := (authBody_spec inv hm h0 h).1
          cases b with
          | true => intro h; cases h
          | false => exact ih _ _ h2
        | diverge => intro h; cases h
        | panic =>
          exfalso
          have hf' := hf
          rw [← h0.needs] at hf'
          unfold V2.needs at hf'
          obtain ⟨⟨res, d⟩, h3⟩ := resolvePerms_total (e := e) (site := site ++ [.int k]) (h0.inv inv) (h0.frame.users.symm ▸ hnil)
            (fuel := fuel) (by omega) (by omega) r.principal t.id ns r.scope
          rw [V2.authBody, h3, Out.bind_ok] at h
          cases res with
          | none => cases h
          | some l =>
            dsimp only at h
            have := anyI_ne_panic (f := fun _ perm => matchPermission perm r) (xs := e.o.ord (site ++ [.int k]) _ l) (i := 0) (fun _ x => by
              unfold matchPermission
              split
              · intro h; cases h
              · exact matchResource_no_panic _ _)
            generalize Out.anyI (fun _ perm => matchPermission perm r) 0 (e.o.ord (site ++ [.int k]) _ l) = o at h this
            cases o with
            | ok b => cases h
            | panic => exact this rfl
            | diverge => cases h

theorem agrees_panic {x : Out α × V2} {o : Out (α × V2)} (h : Agrees x o) : x.1 = .panic ↔ o = .panic := by
  obtain ⟨x1, x2⟩ := x
  cases o with
  | ok y => cases h; exact ⟨fun h => (by cases h), fun h => (by cases h)⟩
  | panic => exact ⟨fun _ => rfl, fun _ => h⟩
  | diverge => refine ⟨fun e => ?_, fun h => (by cases h)⟩; rw [show x1 = .diverge from h] at e; cases e

/-- C119. With the stack a decision needs, `Authorize` panics exactly if nil is among the assignments and the decision gets as far as reading them: no tenant
is named and none is the default one, or the tenant has the namespace and the scope. -/
theorem C119_when_authorize (inv : Inv w) {e : Env} {fuel : Nat} {site : List Val} {r : Req2} (hf : w.needs ≤ fuel) :
    ((NCall.authorize e fuel site r).go w).1 = .panic ↔ none ∈ w.userRoles ∧ Reads w r := by
  refine (drop_panic.trans (agrees_panic authorize_agrees)).trans ?_
  by_cases hn : none ∈ w.userRoles
  · refine ⟨fun h => ⟨hn, Classical.byContradiction fun hr => ?_⟩, fun h => authorize_panic inv hn (by unfold V2.needs at hf; omega) h.2⟩
    obtain ⟨x, hx⟩ := decision_unread (e := e) (site := site) (body := V2.authBody e fuel site r) inv hn hr
    rw [authorize_eq, hx] at h; cases h
  · exact ⟨fun h => absurd h (authorize_ne_panic inv hn hf), fun h => absurd h.1 hn⟩

/-- C119. The same of `Can`. -/
theorem C119_when_can (inv : Inv w) {e : Env} {fuel : Nat} {site : List Val} {r : Req2} {roles : List Str} (hf : w.needs ≤ fuel) :
    ((NCall.can e fuel site r roles).go w).1 = .panic ↔ none ∈ w.userRoles ∧ Reads w r := by
  refine (drop_panic.trans (agrees_panic can_agrees)).trans ?_
  by_cases hn : none ∈ w.userRoles
  · refine ⟨fun h => ⟨hn, Classical.byContradiction fun hr => ?_⟩, fun h => can_panic inv hn (by unfold V2.needs at hf; omega) h.2⟩
    obtain ⟨x, hx⟩ := decision_unread (e := e) (site := site) (body := V2.canBody e fuel site r roles) inv hn hr
    rw [can_eq, hx] at h; cases h
  · refine ⟨fun h => ?_, fun h => absurd h.1 hn⟩
    obtain ⟨b, w', hx⟩ := can_total (e := e) (site := site) (r := r) (roles := roles) inv hn hf
    rw [hx] at h; cases h

/-- Whether each of the calls panics after a history. -/
def panicsAfter (h cs : List NCall) : Option (List Bool) := (runAll {} h).map fun w => cs.map fun c => match (c.go w).1 with | .panic => true | _ => false

/-- C119. Calls that panic and their neighbours that do not: scopes with nil for a namespace that is there and for one that is not; an expiry for a nil
assignment, in the future and in the past; a duration for one, that can be read and that cannot; a removal that names something and a decision, first without
nil among the assignments and then with it, where a decision about a tenant, a namespace or a scope that is not there returns. -/
theorem C119_when_cases :
    panicsAfter exHistory [.addScopes (some 0) (str "n") [none], .addScopes (some 0) (str "m") [none], .setExpiry none 1 2, .setExpiry none 2 1,
      .setExpiryDuration none (fun _ => some 1) 0 (.str (str "1h")), .setExpiryDuration none (fun _ => none) 0 (.str (str "x")),
      .removePrincipalRole { principal := str "p" }, .authorize exEnv 9 [] exReq, .can exEnv 9 [] exReq [str "r"]] =
      some [true, false, true, false, true, false, false, false, false] ∧
    panicsAfter (exHistory ++ [.addPrincipalRole [none]]) [.removePrincipalRole { principal := str "q" }, .removePrincipalRole {}, .authorize exEnv 9 [] exReq,
      .authorize exEnv 9 [] { exReq with tenant := [] }, .authorize exEnv 9 [] { exReq with tenant := str "u" }, .authorize exEnv 9 [] { exReq with scope := str "u" },
      .can exEnv 9 [] { exReq with namespace_ := str "u" } [], .can exEnv 9 [] exReq []] = some [true, false, true, true, false, false, false, true] := by
  decide +kernel

end RQ
end Verif
