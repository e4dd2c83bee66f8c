import Verif.Lemmas.V2Serial
import Verif.Props.V2Conc

/-!
# Package v2: concurrent calls and calls made one at a time (C87)
-/

namespace Verif

/-! ## A call by itself -/

namespace Prog

/-- One step when no other goroutine exists. -/
def go (m : V2) : Prog → Option (V2 × Prog)
  | lock _ _ k => some (m, k)
  | unlock _ _ k => some (m, k)
  | bfs _ .pop [] _ res k => some (m, k res)
  | bfs names .pop (x :: q) V res k =>
    if x ∈ V then some (m, bfs names .pop q V res k)
    else match m.dag.roles.get x with
      | none => some (m, bfs names .pop q (V ++ [x]) res k)
      | some a => some (m, bfs names (.emit x a) q (V ++ [x]) res k)
  | bfs names (.emit x a) q V res k => some (m, bfs names (.push x) q V ((contrib names (m.roleAt a)).foldl addStr res) k)
  | bfs names (.push x) q V res k => some (m, bfs names .pop (q ++ m.dag.children x) V res k)
  | p => adv m p

/-- The program, run from memory `m` without interruption, leaves `m'` and returns `r`. -/
inductive Ends : Prog → V2 → V2 → Option (List Str) → Prop where
  | done {m r} : Ends (.done r) m m r
  | step {p m m1 p1 m' r} : go m p = some (m1, p1) → Ends p1 m1 m' r → Ends p m m' r

variable {p p' : Prog} {m m' m1 : V2} {r : Option (List Str)} {x : Loc}

theorem ends_step (h : go m p = some (m1, p')) : Ends p m m' r ↔ Ends p' m1 m' r := by
  constructor
  · intro e
    cases e with
    | done => cases h
    | step h1 h2 => rw [h] at h1; cases h1; exact h2
  · exact .step h

theorem ends_done {s : Option (List Str)} : Ends (.done s) m m' r ↔ m' = m ∧ r = s := by
  constructor
  · intro e
    cases e with
    | done => exact ⟨rfl, rfl⟩
    | step h => cases h
  · rintro ⟨rfl, rfl⟩; exact .done

theorem ends_read {k : Cell x → Prog} : Ends (.read x k) m m' r ↔ Ends (k (x.get m)) m m' r := ends_step rfl
theorem ends_upd {f : Cell x → Cell x} {k : Prog} : Ends (.upd x f k) m m' r ↔ Ends k (x.put m f) m' r := ends_step rfl
theorem ends_lock {l : Lock} {b : Bool} {k : Prog} : Ends (.lock l b k) m m' r ↔ Ends k m m' r := ends_step rfl
theorem ends_unlock {l : Lock} {b : Bool} {k : Prog} : Ends (.unlock l b k) m m' r ↔ Ends k m m' r := ends_step rfl

theorem ends_dfs {q V : List Str} {k : Bool → Prog} (h : Ends (.dfs q V k) m m' r) :
    ∃ b n, m.dag.srch n q V = some b ∧ Ends (k b) m m' r := by
  generalize hp : Prog.dfs q V k = p at h
  induction h generalizing q V with
  | done => cases hp
  | @step p m m1 p1 m' r h1 h2 ih =>
    subst hp
    cases q with
    | nil => cases h1; exact ⟨false, 0, rfl, h2⟩
    | cons x q =>
      simp only [go, adv] at h1
      split at h1
      · rename_i hx
        cases h1
        exact ⟨true, 1, by simp [Dag.srch, hx], h2⟩
      · rename_i hx
        cases h1
        obtain ⟨b, n, h3, h4⟩ := ih rfl
        exact ⟨b, n + 1, by simp [Dag.srch, hx, h3], h4⟩

theorem ends_bfs {names : Bool} {a : BfsAt} {q V res : List Str} {k : List Str → Prog} (h : Ends (.bfs names a q V res k) m m' r) :
    ∃ s, m.dag.BfsLeads names a q V res s ∧ Ends (k s) m m' r := by
  generalize hp : Prog.bfs names a q V res k = p at h
  induction h generalizing a q V res with
  | done => cases hp
  | @step p m m1 p1 m' r h1 h2 ih =>
    subst hp
    cases a with
    | pop =>
      cases q with
      | nil => cases h1; exact ⟨res, ⟨0, rfl⟩, h2⟩
      | cons x q =>
        simp only [go] at h1
        split at h1
        · rename_i hx
          cases h1
          obtain ⟨s, ⟨n, h3⟩, h4⟩ := ih rfl
          exact ⟨s, ⟨n + 1, by simp [Dag.bfsz, hx, h3]⟩, h4⟩
        · rename_i hx
          split at h1
          · rename_i hr
            cases h1
            obtain ⟨s, ⟨n, h3⟩, h4⟩ := ih rfl
            exact ⟨s, ⟨n + 1, by simp [Dag.bfsz, hx, hr, h3]⟩, h4⟩
          · rename_i hr
            cases h1
            obtain ⟨s, ⟨n, h3⟩, h4⟩ := ih rfl
            refine ⟨s, ⟨n + 1, ?_⟩, h4⟩
            unfold Dag.bfsz
            rw [if_neg hx, hr]
            exact h3
    | emit x b => cases h1; have h3 := ih rfl; exact h3
    | push x => cases h1; have h3 := ih rfl; exact h3

end Prog

/-! ## The calls of the sequential model -/

/-- How the model of the locks returns an error. -/
def errOf (b : Bool) : Option (List Str) := if b then some [] else none

/-- The call, made alone in state `w`, gives state `w'` and result `r`, according to the sequential model.  Decisions are
not described here. -/
def Spec.Alone (w w' : V2) (r : Option (List Str)) : LCall → Prop
  | .addPermission a ps => V2Op.apply w (.addPermission a ps) = .ok w' ∧ r = none
  | .removePermission a ps => V2Op.apply w (.removePermission a ps) = .ok w' ∧ r = none
  | .addNamespace c n d => w.tAddNamespace c n d = .ok w' ∧ r = none
  | .addScopes c n scs => ∃ b, w.tAddScope c n scs = .ok (b, w') ∧ r = errOf b
  | .addChildTenant c ds => w.tAddChild c ds = .ok w' ∧ r = none
  | .addRoles as => V2Op.apply w (.addRoles as) = .ok w' ∧ r = none
  | .addChildRole p cs => ∃ fuel b d, w.dag.addChildRole fuel p cs = .ok (b, d) ∧ w' = { w with dag := d } ∧ r = errOf b
  | .resolve false n => ∃ fuel s d, w.dag.resolvePermissions fuel n = .ok (s, d) ∧ w' = { w with dag := d } ∧ r = some s
  | .resolve true n => ∃ fuel s d, w.dag.resolveChildRoles fuel n = .ok (s, d) ∧ w' = { w with dag := d } ∧ r = some s
  | .getRole _ | .getTenant _ => w' = w ∧ r = none
  | .addTenant c => w.addTenant c = .ok w' ∧ r = none
  | .setDefaultTenant t => w' = { w with defTenant := t } ∧ r = none
  | .addPrincipalRole is => w.addPrincipalRole is = .ok w' ∧ r = none
  | .removePrincipalRole target => ∃ b, w.removePrincipalRole target = .ok (b, w') ∧ r = errOf b
  | .setExpiry i e => V2Op.onPR w i (fun u => { u with expiry := e }) = .ok w' ∧ r = none
  | .judge _ => False

/-- The pointers given to the call are valid; `RemovePrincipalRole` does not meet a nil entry. -/
def LCall.Valid (w : V2) : LCall → Prop
  | addPermission a _ | removePermission a _ => a < w.dag.objs.length
  | addNamespace c _ _ | addScopes c _ _ | addTenant c => c < w.tobjs.length
  | addChildTenant c ds => c < w.tobjs.length ∧ ∀ d ∈ ds, d < w.tobjs.length
  | addRoles as => ∀ a ∈ as, a < w.dag.objs.length
  | addPrincipalRole is => ∀ i ∈ is, i < w.prs.length
  | setExpiry i _ => i < w.prs.length
  | removePrincipalRole _ => none ∉ w.userRoles
  | _ => True

theorem put_put {x : Loc} (hx : ∀ i, x ≠ .assigned i) {m : V2} {f g : Cell x → Cell x} : x.put (x.put m f) g = x.put m (fun v => g (f v)) := by
  have e : ∀ {α : Type} {l : List α} {a : Nat} {f g : α → α}, (l.modify a f).modify a g = l.modify a fun v => g (f v) := by
    intro α l a f g
    refine List.ext_getElem? fun j => ?_
    simp only [List.getElem?_modify]
    cases l[j]? <;> simp
    split <;> rfl
  cases x with
  | assigned i => exact absurd rfl (hx i)
  | _ => simp [Loc.put, e]

theorem put_id {x : Loc} {m : V2} : x.put m (fun v => v) = m := by
  have e : ∀ {α : Type} {l : List α} {a : Nat}, (l.modify a fun v => v) = l := by
    intro α l a
    refine List.ext_getElem? fun j => ?_
    simp only [List.getElem?_modify]
    cases l[j]? <;> simp
  cases x <;> simp [Loc.put, e]

theorem modify_set {α : Type} {l : List α} {a : Nat} {r : α} (h : l[a]? = some r) (f : α → α) : l.modify a f = l.set a (f r) := by
  refine List.ext_getElem? fun j => ?_
  rw [List.getElem?_modify, List.getElem?_set]
  by_cases e : a = j
  · subst e
    rw [if_pos rfl, if_pos (List.getElem?_eq_some_iff.1 h).1, h]
    simp
  · rw [if_neg e]
    simp [e]

theorem Prog.ends_updAll {α : Type} {x : Loc} (hx : ∀ i, x ≠ .assigned i) {f : α → Cell x → Cell x} {as : List α} {k : Prog} {m m' : V2} {r : Option (List Str)} :
    Ends (LCall.updAll x f as k) m m' r ↔ Ends k (x.put m fun s => as.foldl (fun s a => f a s) s) m' r := by
  induction as generalizing m with
  | nil => exact iff_of_eq (congrArg (fun m => Ends k m m' r) put_id.symm)
  | cons a as ih =>
    refine ends_upd.trans (ih.trans ?_)
    rw [put_put hx]
    rfl


section
variable {m m' : V2} {r : Option (List Str)}
open Prog

theorem some_of_lt {α : Type} {l : List α} {a : Nat} (h : a < l.length) : ∃ x, l[a]? = some x := ⟨_, List.getElem?_eq_getElem h⟩

theorem getD_of {α : Type} {l : List α} {a : Nat} {x d : α} (h : l[a]? = some x) : l.getD a d = x := by
  rw [List.getD_eq_getElem?_getD, h]; rfl

theorem set_set {κ ν : Type} [DecidableEq κ] (l : GoMap κ ν) (k : κ) (v v' : ν) : (l.set k v).set k v' = l.set k v' := by
  induction l with
  | nil => simp [GoMap.set]
  | cons e l ih =>
    obtain ⟨a, b⟩ := e
    by_cases h : a = k
    · simp [GoMap.set, h]
    · simp [GoMap.set, h, ih]

theorem set_get {κ ν : Type} [DecidableEq κ] {l : GoMap κ ν} {k : κ} {v : ν} (h : l.get k = some v) : l.set k v = l := by
  induction l with
  | nil => cases h
  | cons e l ih =>
    unfold GoMap.get at h
    unfold GoMap.set
    split at h
    · rename_i he
      cases h
      rw [if_pos he, ← he]
    · rename_i he
      rw [if_neg he, ih h]

theorem set_foldl {α κ : Type} [DecidableEq κ] {f : List Str → α → List Str} {k : κ} {as : List α} {l : GoMap κ (List Str)} {v : List Str}
    (h : l.get k = some v) : as.foldl (fun l a => l.set k (f ((l.get k).getD []) a)) l = l.set k (as.foldl f v) := by
  induction as generalizing l v with
  | nil => exact (set_get h).symm
  | cons a as ih =>
    simp only [List.foldl_cons]
    rw [ih (v := f v a) (by rw [GoMap.get_set, if_pos rfl, h]; rfl), set_set]

theorem ends_loop {α : Type} {step : V2 → α → Out V2} {F : α → Prog → Prog} {P : V2 → Prop} {as : List α} {k : Prog}
    (hF : ∀ a ∈ as, ∀ m k, P m → ∃ m1, step m a = .ok m1 ∧ P m1 ∧ ∀ m' r, Ends (F a k) m m' r → Ends k m1 m' r)
    (hP : P m) (h : Ends (as.foldr F k) m m' r) : ∃ m1, Out.loop step m as = .ok m1 ∧ Ends k m1 m' r := by
  induction as generalizing m with
  | nil => exact ⟨m, rfl, h⟩
  | cons a as ih =>
    obtain ⟨m1, h1, h2, h3⟩ := hF a List.mem_cons_self m _ hP
    obtain ⟨m2, h4, h5⟩ := ih (fun b hb => hF b (List.mem_cons_of_mem _ hb)) h2 (h3 _ _ h)
    exact ⟨m2, by rw [Out.loop, h1]; exact h4, h5⟩

theorem alone_perms {a : Nat} {ps : List Perm2} {f : Str → List Str → List Str} (ha : a < m.dag.objs.length)
    (h : Ends (LCall.locked (.role a) fun k => LCall.updAll (.perms a) (fun (p : Perm2) (s : List Str) => f p.string s) ps (k none)) m m' r) :
    ∃ o, m.dag.objs[a]? = some o ∧ r = none ∧
      m' = { m with dag := { m.dag with objs := m.dag.objs.set a { o with perms := (ps.map Perm2.string).foldl (fun s x => f x s) o.perms } } } := by
  obtain ⟨o, ho⟩ := some_of_lt ha
  obtain ⟨h1, h2⟩ := ends_done.1 (ends_unlock.1 ((ends_updAll (by simp)).1 (ends_lock.1 h)))
  refine ⟨o, ho, h2, ?_⟩
  rw [h1]
  simp only [Loc.put]
  rw [modify_set ho, List.foldl_map]
  rfl

theorem ends_readPRs {l : List (Option Nat)} {k : List (Option Nat × PR) → Prog} (h : Ends (LCall.readPRs l k) m m' r) :
    Ends (k (l.map fun x => (x, match x with | none => {} | some i => { m.prs.getD i {} with expiry := none }))) m m' r := by
  induction l generalizing k with
  | nil => exact h
  | cons x l ih =>
    cases x with
    | none => exact ih h
    | some i => exact ih (ends_read.1 h)

theorem matchesPR_expiry {target u : PR} : V2.matchesPR target { u with expiry := none } = V2.matchesPR target u := rfl

theorem sel_some (m : V2) {target : PR} {i : Nat} {u : PR} (h : m.prs[i]? = some u) :
    m.sel target (some i) = V2.matchesPR target { m.prs.getD i {} with expiry := none } := by
  rw [V2.sel_eq (V2.matchesAt_some h), getD_of h]
  rfl

theorem dropIndex_keep {target : PR} {gone : List (Option Nat)} {ix : GoMap Str (GoMap Str (List Nat))}
    (h : ∀ e ∈ ix, ∀ f ∈ e.2, ∀ i ∈ f.2, gone.contains (some i) = m.sel target (some i)) :
    LCall.dropIndex gone ix = ix.keep (m.keepMap target) := by
  unfold LCall.dropIndex GoMap.keep
  refine List.filterMap_congr fun e he => ?_
  have e1 : (e.2.filterMap fun f => if (f.2.filter fun i => !gone.contains (some i)).isEmpty then none
      else some (f.1, f.2.filter fun i => !gone.contains (some i))) = GoMap.keep e.2 (m.keepIds target) := by
    unfold GoMap.keep
    refine List.filterMap_congr fun f hf => ?_
    have e2 : (f.2.filter fun i => !gone.contains (some i)) = f.2.filter fun i => !m.sel target (some i) :=
      List.filter_congr fun i hi => by rw [h e he f hf i hi]
    rw [e2]
    unfold V2.keepIds
    cases f.2.filter fun i => !m.sel target (some i) <;> simp
  simp only [e1]
  unfold V2.keepMap
  cases GoMap.keep e.2 (m.keepIds target) <;> simp

theorem alone_remove (inv : V2.Inv m) (hn : none ∉ m.userRoles) {target : PR} (h : Ends (LCall.prog (.removePrincipalRole target)) m m' r) :
    ∃ b, m.removePrincipalRole target = .ok (b, m') ∧ r = errOf b := by
  obtain ⟨b, w', hb⟩ := V2.remove_total inv hn target
  have h1 := ends_readPRs (ends_read.1 h)
  have hsel : ∀ x ∈ m.userRoles, V2.matchesPR target (match x with | none => {} | some i => { m.prs.getD i {} with expiry := none }) =
      m.sel target x := by
    intro x hx
    cases x with
    | none => exact absurd hx hn
    | some i =>
      obtain ⟨u, hu⟩ := inv.users i hx
      exact (sel_some m hu).symm
  refine ⟨b, ?_⟩
  rw [hb]
  simp only [Loc.get, List.any_map] at h1
  rcases (V2.remove_eq hb).2 with ⟨rfl, rfl, h2⟩ | ⟨rfl, h2, rfl⟩
  · rw [if_neg] at h1
    · obtain ⟨rfl, rfl⟩ := ends_done.1 h1
      exact ⟨rfl, rfl⟩
    · rw [List.any_eq_true]
      rintro ⟨x, hx, h3⟩
      have := hsel x hx
      rw [h2 x hx] at this
      simp only [Function.comp] at h3
      rw [this] at h3
      cases h3
  · rw [if_pos] at h1
    · obtain ⟨rfl, rfl⟩ := ends_done.1 (ends_upd.1 (ends_readPRs (ends_read.1 (ends_upd.1 h1))))
      refine ⟨?_, rfl⟩
      congr 1
      congr 1
      have e1 : LCall.keepUsers target (m.userRoles.map fun x => (x, match x with | none => {} | some i => { m.prs.getD i {} with expiry := none })) =
          (m.blank target m.userRoles).take (m.kept target m.userRoles).length := by
        unfold LCall.keepUsers V2.blank V2.kept
        rw [List.map_map, List.filter_map, List.length_map]
        congr 1
        · rw [List.filter_congr (q := fun x => !m.sel target x)]
          intro x hx
          simp only [Function.comp]
          rw [hsel x hx]
        · refine List.map_congr_left fun x hx => ?_
          simp only [Function.comp]
          rw [hsel x hx]
      have e2 : LCall.dropIndex (((LCall.indexed m.index |>.map fun x => (x, (match x with | none => {} | some i => { m.prs.getD i {} with expiry := none } : PR))).filter fun iu =>
          V2.matchesPR target iu.2).map (·.1)) m.index = m.index.keep (m.keepMap target) := by
        refine dropIndex_keep fun e he f hf i hi => ?_
        obtain ⟨u, hu, _⟩ := (inv.indexed e.1 e.2 f.1 f.2 he hf).2 i hi
        rw [sel_some m hu, Bool.eq_iff_iff, List.contains_iff_mem, List.mem_map]
        constructor
        · rintro ⟨⟨x, y⟩, h3, rfl⟩
          obtain ⟨h3, h4⟩ := List.mem_filter.1 h3
          obtain ⟨x, _, h5⟩ := List.mem_map.1 h3
          cases h5
          exact h4
        · intro h3
          refine ⟨(some i, { m.prs.getD i {} with expiry := none }), List.mem_filter.2 ⟨List.mem_map.2 ⟨some i, ?_, rfl⟩, h3⟩, rfl⟩
          exact List.mem_flatMap.2 ⟨e, he, List.mem_flatMap.2 ⟨f, hf, List.mem_map_of_mem hi⟩⟩
      simp only [Loc.put]
      rw [← e1, ← e2]
      rfl
    · obtain ⟨x, hx, h3⟩ := h2
      rw [List.any_eq_true]
      exact ⟨x, hx, (hsel x hx).trans h3⟩

theorem addRoles_loop (as : List Nat) (m : V2) : V2Op.apply m (.addRoles as) = Out.loop (fun w a => (match w.dag.objs[a]? with
    | none => Out.panic
    | some o => .ok { w.dag with roles := w.dag.roles.set o.name a }).map fun d => { w with dag := d }) m as := by
  induction as generalizing m with
  | nil => rfl
  | cons a as ih =>
    have e : V2Op.apply m (.addRoles (a :: as)) = (match m.dag.objs[a]? with
        | none => Out.panic
        | some o => .ok { m.dag with roles := m.dag.roles.set o.name a }).bind fun d => V2Op.apply { m with dag := d } (.addRoles as) := by
      simp only [V2Op.apply, V2.addRoles, Dag.addRole, Out.loop]
      cases m.dag.objs[a]? <;> rfl
    rw [e, Out.loop]
    cases m.dag.objs[a]? with
    | none => rfl
    | some o => exact ih _

/-- A call that runs without interruption does what the sequential model says. -/
theorem alone_of_ends (inv : V2.Inv m) {call : LCall} (hv : call.Valid m) (hj : ∀ acts, call ≠ .judge acts) (h : Ends call.prog m m' r) :
    Spec.Alone m m' r call := by
  cases call with
  | addPermission a ps =>
    obtain ⟨o, h1, h2, rfl⟩ := alone_perms (f := fun x s => addStr s x) hv h
    refine ⟨?_, h2⟩
    simp only [V2Op.apply, Dag.addPermission, h1]
    rfl
  | removePermission a ps =>
    obtain ⟨o, h1, h2, rfl⟩ := alone_perms (f := fun x s => s.filter fun y => decide (y ≠ x)) hv h
    refine ⟨?_, h2⟩
    simp only [V2Op.apply, Dag.removePermission, h1]
    rfl
  | addNamespace c n d =>
    obtain ⟨t, ht⟩ := some_of_lt (show c < m.tobjs.length from hv)
    have h1 := ends_read.1 (ends_lock.1 h)
    have e : Loc.get m (.namespaces c) = t.namespaces := congrArg T2.namespaces (getD_of ht)
    rw [e] at h1
    simp only at h1
    have tail : ∀ {m1 : V2} {t1 : T2}, m1.tobjs[c]? = some t1 →
        Ends (if d = true then Prog.upd (.defNs c) (fun _ => n) (Prog.unlock (.tenant c) true (.done none)) else Prog.unlock (.tenant c) true (.done none)) m1 m' r →
        m' = m1.setT c { t1 with defNs := if d then n else t1.defNs } ∧ r = none := by
      intro m1 t1 h2 h3
      split at h3
      · rename_i hd
        obtain ⟨rfl, rfl⟩ := ends_done.1 (ends_unlock.1 (ends_upd.1 h3))
        refine ⟨?_, rfl⟩
        simp only [Loc.put, V2.setT, hd, if_true]
        rw [modify_set h2]
      · rename_i hd
        obtain ⟨rfl, rfl⟩ := ends_done.1 (ends_unlock.1 h3)
        refine ⟨?_, rfl⟩
        simp only [V2.setT, if_neg hd]
        exact (put_id (x := .defNs c) (m := m')).symm.trans (by simp only [Loc.put]; rw [modify_set h2])
    split at h1
    · rename_i v hg
      obtain ⟨rfl, rfl⟩ := tail ht h1
      refine ⟨?_, rfl⟩
      simp only [V2.tAddNamespace, V2.withT, ht, hg]
    · rename_i hg
      have e2 : Loc.put m (.namespaces c) (fun l => GoMap.set (κ := Str) (ν := List Str) l n []) =
          m.setT c { t with namespaces := t.namespaces.set n [] } := by
        simp only [Loc.put, V2.setT]
        rw [modify_set ht]
      have h2 := ends_upd.1 h1
      rw [e2] at h2
      obtain ⟨rfl, rfl⟩ := tail (t1 := { t with namespaces := t.namespaces.set n [] })
        (by simp only [V2.setT]; rw [List.getElem?_set_self hv]) h2
      refine ⟨?_, rfl⟩
      simp only [V2.tAddNamespace, V2.withT, ht, hg, V2.setT, List.set_set]
  | addScopes c n scs =>
    obtain ⟨t, ht⟩ := some_of_lt (show c < m.tobjs.length from hv)
    have h1 := ends_read.1 (ends_lock.1 h)
    have e : Loc.get m (.namespaces c) = t.namespaces := congrArg T2.namespaces (getD_of ht)
    rw [e] at h1
    simp only at h1
    split at h1
    · rename_i hg
      obtain ⟨rfl, rfl⟩ := ends_done.1 (ends_unlock.1 h1)
      exact ⟨true, by simp only [V2.tAddScope, V2.withT, ht, hg], rfl⟩
    · rename_i v hg
      obtain ⟨rfl, rfl⟩ := ends_done.1 (ends_unlock.1 ((ends_updAll (by simp)).1 h1))
      refine ⟨false, ?_, rfl⟩
      simp only [V2.tAddScope, V2.withT, ht, hg, Loc.put, V2.setT]
      rw [modify_set ht]
      have := set_foldl (f := addStr) (as := scs) hg
      rw [← this]
      rfl
  | addChildTenant c ds =>
    obtain ⟨m1, h1, h2⟩ := ends_loop (P := fun m1 => m1.tobjs.length = m.tobjs.length)
      (step := fun w d => w.withT c fun t => w.withT d fun dt => .ok (w.setT c { t with children := t.children.set dt.id d }))
      (fun d hd m1 k hm => by
        obtain ⟨t, ht⟩ := some_of_lt (show c < m1.tobjs.length from hm ▸ hv.1)
        obtain ⟨dt, hdt⟩ := some_of_lt (show d < m1.tobjs.length from hm ▸ hv.2 d hd)
        refine ⟨m1.setT c { t with children := t.children.set dt.id d }, by simp only [V2.withT, ht, hdt], by simp [V2.setT, hm], fun m' r he => ?_⟩
        have he := ends_upd.1 (ends_read.1 he)
        have e : Loc.get m1 (.tenantId d) = dt.id := congrArg T2.id (getD_of hdt)
        rw [e] at he
        simp only [Loc.put] at he
        rw [modify_set ht] at he
        exact he) rfl (ends_lock.1 h)
    obtain ⟨rfl, rfl⟩ := ends_done.1 (ends_unlock.1 h2)
    exact ⟨h1, rfl⟩
  | addRoles as =>
    obtain ⟨m1, h1, h2⟩ := ends_loop (P := fun m1 => m1.dag.objs = m.dag.objs)
      (step := fun w a => (match w.dag.objs[a]? with
        | none => Out.panic
        | some o => .ok { w.dag with roles := w.dag.roles.set o.name a }).map fun d => { w with dag := d })
      (fun a ha m1 k hm => by
        obtain ⟨o, ho⟩ := some_of_lt (show a < m1.dag.objs.length from hm ▸ hv a ha)
        refine ⟨{ m1 with dag := { m1.dag with roles := m1.dag.roles.set o.name a } }, by simp only [ho]; rfl, hm, fun m' r he => ?_⟩
        have he := ends_upd.1 (ends_read.1 he)
        have e : Loc.get m1 (.roleName a) = o.name := congrArg R2.name (getD_of ho)
        rw [e] at he
        exact he) rfl (ends_lock.1 h)
    obtain ⟨rfl, rfl⟩ := ends_done.1 (ends_unlock.1 h2)
    refine ⟨?_, rfl⟩
    rw [← h1]
    exact addRoles_loop as m
  | addChildRole p cs =>
    obtain ⟨b, n, h1, h2⟩ := ends_dfs (ends_lock.1 h)
    obtain ⟨fuel, h3⟩ := Dag.srch_check h1
    cases b with
    | true =>
      obtain ⟨rfl, rfl⟩ := ends_done.1 (ends_unlock.1 h2)
      exact ⟨fuel, true, m'.dag, by simp only [Dag.addChildRole, h3]; rfl, rfl, rfl⟩
    | false =>
      obtain ⟨rfl, rfl⟩ := ends_done.1 (ends_unlock.1 (ends_upd.1 h2))
      exact ⟨fuel, false, _, by simp only [Dag.addChildRole, h3]; rfl, rfl, rfl⟩
  | resolve names n =>
    have key : ∃ fuel s d, m.dag.resolve (contrib names) fuel n = .ok (s, d) ∧ m' = { m with dag := d } ∧ r = some s := by
      have h1 := ends_read.1 (ends_lock.1 h)
      simp only [Loc.get] at h1
      split at h1
      · rename_i s hg
        obtain ⟨rfl, rfl⟩ := ends_done.1 (ends_unlock.1 h1)
        exact ⟨0, s, m'.dag, by simp only [Dag.resolve, hg], rfl, rfl⟩
      · rename_i hg
        obtain ⟨s, ⟨fuel, h2⟩, h3⟩ := ends_bfs (ends_lock.1 (ends_unlock.1 h1))
        obtain ⟨rfl, rfl⟩ := ends_done.1 (ends_unlock.1 (ends_upd.1 h3))
        refine ⟨fuel, s, { m.dag with resolved := m.dag.resolved.set n s }, ?_, rfl, rfl⟩
        have h4 := Dag.bfs_of_bfsz (fun k a ha => by
          obtain ⟨o, ho, _⟩ := inv.dag.keyed k a ha
          exact ⟨o, ho⟩) h2
        simp only [Dag.resolve, hg, h4]
        rfl
    cases names with
    | false => exact key
    | true => exact key
  | getRole n => exact ends_done.1 (ends_read.1 h)
  | getTenant n =>
    simp only [LCall.prog, LCall.locked, ends_lock, ends_read, ends_unlock, ends_done] at h
    exact h
  | addTenant c =>
    obtain ⟨t, ht⟩ := some_of_lt (show c < m.tobjs.length from hv)
    have h1 := ends_upd.1 (ends_read.1 (ends_lock.1 h))
    have e1 : Loc.get m (.tenantId c) = t.id := congrArg T2.id (getD_of ht)
    rw [e1] at h1
    have h1 := ends_read.1 h1
    have e2 : Loc.get (Loc.put m .tenants fun l => GoMap.set (κ := Str) (ν := Nat) l t.id c) (.children c) = t.children := congrArg T2.children (getD_of ht)
    rw [e2] at h1
    obtain ⟨m1, h2, h3⟩ := ends_loop (P := fun m1 => m1.tobjs = m.tobjs) (m := Loc.put m .tenants fun l => GoMap.set (κ := Str) (ν := Nat) l t.id c) (as := t.children)
      (F := fun kd k => Prog.read (.tenantId kd.2) fun d => .upd .parents (fun m => GoMap.set (κ := Str) (ν := Nat) m d c) k)
      (step := fun (w : V2) kd => w.withT kd.2 fun d => .ok { w with parents := w.parents.set d.id c })
      (fun kd hk m1 k hm => by
        obtain ⟨d, hd, _⟩ := inv.children t (List.mem_of_getElem? ht) kd.1 kd.2 hk
        rw [← hm] at hd
        refine ⟨{ m1 with parents := m1.parents.set d.id c }, by simp only [V2.withT, hd], hm, fun m' r he => ?_⟩
        have he := ends_upd.1 (ends_read.1 he)
        have e : Loc.get m1 (.tenantId kd.2) = d.id := congrArg T2.id (getD_of hd)
        rw [e] at he
        exact he) rfl h1
    obtain ⟨rfl, rfl⟩ := ends_done.1 (ends_unlock.1 h3)
    refine ⟨?_, rfl⟩
    simp only [V2.addTenant, V2.withT, ht]
    exact h2
  | setDefaultTenant t => exact ends_done.1 (ends_upd.1 h)
  | addPrincipalRole is =>
    have key : ∀ (is : List Nat) (m1 : V2) (k : Prog), m1.prs = m.prs → (∀ i ∈ is, i < m.prs.length) → Ends (LCall.addPRs is k) m1 m' r →
        ∃ m2, m1.addPrincipalRole is = .ok m2 ∧ Ends k m2 m' r := by
      intro is
      induction is with
      | nil => exact fun m1 k _ _ h => ⟨m1, rfl, h⟩
      | cons i is ih =>
        intro m1 k hm hi h
        obtain ⟨u, hu⟩ := some_of_lt (hi i List.mem_cons_self)
        rw [← hm] at hu
        have h1 := ends_upd.1 (ends_read.1 (ends_upd.1 h))
        have e : Loc.get (Loc.put m1 .userRoles fun l => (show List (Option Nat) from l) ++ [some i]) (.assigned i) = { u with expiry := none } :=
          congrArg (fun u : PR => ({ u with expiry := none } : PR)) (getD_of hu)
        rw [e] at h1
        obtain ⟨m2, h2, h3⟩ := ih _ k (by exact hm) (fun j hj => hi j (List.mem_cons_of_mem _ hj)) h1
        refine ⟨m2, ?_, h3⟩
        rw [← h2]
        simp only [V2.addPrincipalRole, Out.loop, V2.prAt, hu]
        rfl
    obtain ⟨m2, h1, h2⟩ := key is m _ rfl hv (ends_lock.1 h)
    obtain ⟨rfl, rfl⟩ := ends_done.1 (ends_unlock.1 h2)
    exact ⟨h1, rfl⟩
  | removePrincipalRole target => exact alone_remove inv hv h
  | setExpiry i e =>
    obtain ⟨h1, h2⟩ := ends_done.1 (ends_upd.1 h)
    obtain ⟨u, hu⟩ := some_of_lt (show i < m.prs.length from hv)
    refine ⟨?_, h2⟩
    rw [h1]
    simp only [V2Op.onPR, V2.prAt, hu, Loc.put]
    rw [modify_set hu]
    rfl
  | judge acts => exact absurd rfl (hj acts)

end

/-! ## The property -/

/-- The calls of `L`, made one at a time in this order, lead from `w` to `w'` with the results in `L`. -/
inductive Spec.InTurn : V2 → Order → V2 → Prop where
  | nil {w} : InTurn w [] w
  | snoc {w L w1 w2 i call r} : InTurn w L w1 → Spec.Alone w1 w2 r call → InTurn w (L ++ [(i, call, r)]) w2

namespace Conf

/-- What goroutine `i` has finished. -/
def outOf (c : Conf) (i : Nat) : List (LCall × Option (List Str)) := (c.threads[i]?.map (·.out)).getD []

/-- Every goroutine has made all its calls. -/
def Over (c : Conf) : Prop := ∀ t ∈ c.threads, t.cur = none ∧ t.todo = []

/-- `L` consists of the finished calls with their results, and perhaps of calls in progress. -/
def Covers (c : Conf) (L : Order) : Prop := ∀ i, L.of i = c.outOf i ∨
  ∃ call p r, c.threads[i]?.bind (·.cur) = some (call, p) ∧ L.of i = c.outOf i ++ [(call, r)]

/-- `L` respects time: at every moment of the execution `is`, a beginning of `L` contains the calls finished so far, and no
call that has not begun. -/
def Timely (c : Conf) (is : List Nat) (L : Order) : Prop :=
  ∀ is1 is2 c1, is = is1 ++ is2 → c.run is1 = some c1 → ∃ L1 L2, L = L1 ++ L2 ∧ c1.Covers L1

/-- Calls that do all their work while they hold one lock for writing. -/
def _root_.Verif.LCall.Guarded (calls : List (List LCall)) : LCall → Prop
  | .addPermission _ _ | .removePermission _ _ | .addNamespace _ _ _ | .addScopes _ _ _ | .addChildTenant _ _ | .addRoles _
  | .addChildRole _ _ | .getTenant _ | .addPrincipalRole _ => True
  | .addTenant c => ∀ cs ∈ calls, ∀ ds, LCall.addChildTenant c ds ∉ cs
  | _ => False

/-- Locations that the guarded calls do not change. -/
def Unchanged (calls : List (List LCall)) (x : Loc) : Prop := x.Fixed ∨ ∃ c, x = .children c ∧ ∃ cs ∈ calls, LCall.addTenant c ∈ cs

theorem ops_alone {calls : List (List LCall)} {w w' : V2} {r : Option (List Str)} {call : LCall} (hg : call.Guarded calls) (h : Spec.Alone w w' r call) :
    ∃ ops, V2Op.run w ops = .ok w' := by
  have one : ∀ op, V2Op.apply w op = .ok w' → ∃ ops, V2Op.run w ops = .ok w' := fun op ho => ⟨[op], by
    simp only [V2Op.run, Out.loop, ho]; rfl⟩
  cases call with
  | addPermission a ps => exact one _ h.1
  | removePermission a ps => exact one _ h.1
  | addNamespace c n d => exact one (.addNamespace c n d) h.1
  | addScopes c n scs =>
    obtain ⟨b, h1, _⟩ := h
    exact one (.addScopes c n scs) (by simp only [V2Op.apply, h1]; rfl)
  | addChildTenant c ds => exact one (.addChildTenant c ds) h.1
  | addRoles as => exact one _ h.1
  | addChildRole p cs =>
    obtain ⟨fuel, b, d, h1, rfl, _⟩ := h
    exact one (.addChildRole fuel p cs) (by simp only [V2Op.apply, h1]; rfl)
  | getTenant n => obtain ⟨rfl, _⟩ := h; exact ⟨[], rfl⟩
  | addTenant c => exact one (.addTenant c) h.1
  | addPrincipalRole is => exact one (.addPrincipalRole is) h.1
  | resolve | getRole | setDefaultTenant | removePrincipalRole | setExpiry | judge => exact hg.elim

section
variable {F : Loc → Prop} {l : Lock} {x : Loc}

theorem sec_updAll {α : Type} {f : α → Cell x → Cell x} {as : List α} {k : Prog} (hx : ¬ F x) (hl : x.guard = l) (hk : k.Sec F l) :
    (LCall.updAll x f as k).Sec F l := by
  induction as with
  | nil => exact hk
  | cons a as ih => exact ⟨hx, hl, ih⟩

theorem sec_end {r : Option (List Str)} : (Prog.unlock l true (.done r)).Sec F l := ⟨rfl, rfl, r, rfl⟩

theorem sec_foldr {α : Type} {f : α → Prog → Prog} {as : List α} {k : Prog} (hf : ∀ a k, k.Sec F l → (f a k).Sec F l) (hk : k.Sec F l) :
    (as.foldr f k).Sec F l := by
  induction as with
  | nil => exact hk
  | cons a as ih => exact hf _ _ ih

end

theorem oneSection {calls : List (List LCall)} {cs : List LCall} {call : LCall} (hcs : cs ∈ calls) (hcall : call ∈ cs)
    (hg : ∀ cs ∈ calls, ∀ call ∈ cs, LCall.Guarded calls call) : call.OneSection (Unchanged calls) := by
  have free : ∀ {x : Loc}, ¬ x.Fixed → (∀ c, x ≠ .children c) → ¬ Unchanged calls x := fun h1 h2 h => by
    rcases h with h | ⟨c, h, _⟩
    · exact h1 h
    · exact h2 c h
  have hgc := hg cs hcs call hcall
  cases call with
  | addPermission a ps => exact ⟨_, _, rfl, sec_updAll (free id (by simp)) rfl sec_end⟩
  | removePermission a ps => exact ⟨_, _, rfl, sec_updAll (free id (by simp)) rfl sec_end⟩
  | addNamespace c n d =>
    refine ⟨_, _, rfl, .inr rfl, fun v => ?_⟩
    have tail : (if d = true then Prog.upd (.defNs c) (fun _ => n) (Prog.unlock (.tenant c) true (.done none))
        else Prog.unlock (.tenant c) true (.done none)).Sec (Unchanged calls) (.tenant c) := by
      split
      · exact ⟨free id (by simp), rfl, sec_end⟩
      · exact sec_end
    simp only
    split
    · exact tail
    · exact ⟨free id (by simp), rfl, tail⟩
  | addScopes c n scs =>
    refine ⟨_, _, rfl, .inr rfl, fun v => ?_⟩
    simp only
    split
    · exact sec_end
    · exact sec_updAll (free id (by simp)) rfl sec_end
  | addChildTenant c ds =>
    refine ⟨_, _, rfl, sec_foldr (fun d k hk => ⟨.inl (.inl trivial), fun v => ⟨?_, rfl, hk⟩⟩) sec_end⟩
    rintro (h | ⟨c', h, cs', h1, h2⟩)
    · exact h
    · cases h
      exact hg cs' h1 _ h2 cs hcs ds hcall
  | addRoles as => exact ⟨_, _, rfl, sec_foldr (fun d k hk => ⟨.inl (.inl trivial), fun v => ⟨free id (by simp), rfl, hk⟩⟩) sec_end⟩
  | addChildRole p cs =>
    refine ⟨_, _, rfl, rfl, fun b => ?_⟩
    cases b with
    | true => exact sec_end
    | false => exact ⟨free id (by simp), rfl, sec_end⟩
  | getTenant n => exact ⟨_, _, rfl, .inr rfl, fun v => sec_end⟩
  | addTenant c =>
    refine ⟨_, _, rfl, .inl (.inl trivial), fun v => ⟨free id (by simp), rfl, .inl (.inr ⟨c, rfl, cs, hcs, hcall⟩), fun v => ?_⟩⟩
    exact sec_foldr (fun d k hk => ⟨.inl (.inl trivial), fun v => ⟨free id (by simp), rfl, hk⟩⟩) sec_end
  | addPrincipalRole is =>
    refine ⟨_, _, rfl, ?_⟩
    clear hcall hgc
    induction is with
    | nil => exact sec_end
    | cons i is ih => exact ⟨free id (by simp), rfl, .inl (.inl trivial), fun v => ⟨free id (by simp), rfl, ih⟩⟩
  | resolve | getRole | setDefaultTenant | removePrincipalRole | setExpiry | judge => exact hgc.elim

/-- The property without exception: the calls, whatever they are, behave like calls made one at a time.  Decisions are
left out: the model of the locks does not compute their outcome. -/
def C87_full : Prop := ∀ (w : V2) (calls : List (List LCall)) (is : List Nat) (c : Conf), V2.Inv w →
  (∀ cs ∈ calls, ∀ call ∈ cs, call.Valid w ∧ ∀ acts, call ≠ .judge acts) → (start w calls).run is = some c → c.Over →
  ∃ L, Spec.InTurn w L c.mem ∧ (∀ i, L.of i = c.outOf i) ∧ (start w calls).Timely is L

/-! ## One goroutine -/

theorem _root_.Verif.Prog.go_of_adv {m m' : V2} {p p' : Prog} (h : p.adv m = some (m', p')) : p.go m = some (m', p') := by
  cases p <;> first
    | exact h
    | cases h

theorem stepProg_go {c : Conf} {b b' : Bool} {held held' : List (Lock × Bool)} {p k : Prog} {m : V2}
    (h : c.stepProg b held p = some (m, b', held', k)) : (m = c.mem ∧ k = p) ∨ p.go c.mem = some (m, k) := by
  cases p with
  | done r => cases h
  | lock l w p =>
    cases w with
    | false =>
      simp only [stepProg] at h
      split at h <;> cases h
      exact .inr rfl
    | true =>
      simp only [stepProg] at h
      split at h
      · split at h <;> cases h
        exact .inr rfl
      · split at h <;> cases h
        exact .inl ⟨rfl, rfl⟩
  | unlock l w p =>
    simp only [stepProg] at h
    split at h <;> cases h
    exact .inr rfl
  | read x p => cases h; exact .inr rfl
  | upd x f p => cases h; exact .inr rfl
  | dfs q V p =>
    cases q with
    | nil => cases h; exact .inr rfl
    | cons x q =>
      simp only [stepProg] at h
      simp only [Prog.go, Prog.adv]
      split at h
      · rename_i hx; cases h; exact .inr (by rw [if_pos hx])
      · rename_i hx; cases h; exact .inr (by rw [if_neg hx])
  | bfs names a q V res p =>
    cases a with
    | pop =>
      cases q with
      | nil => cases h; exact .inr rfl
      | cons x q =>
        simp only [stepProg] at h
        simp only [Prog.go]
        split at h
        · rename_i hx; cases h; exact .inr (by rw [if_pos hx])
        · rename_i hx
          split at h
          · rename_i hr; cases h; exact .inr (by rw [if_neg hx, hr])
          · rename_i hr; cases h; exact .inr (by rw [if_neg hx, hr])
    | emit x y => cases h; exact .inr (by cases names <;> rfl)
    | push x => cases h; exact .inr rfl

theorem alone_run {call : LCall} {is : List Nat} {p : Prog} {t : Thread} {c c' : Conf} (hc : c.threads = [t]) (ht : t.cur = some (call, p)) (hd : t.todo = [])
    (ho : t.out = []) (h : c.run is = some c') (hf : c'.Over) : ∃ r, Prog.Ends p c.mem c'.mem r ∧ c'.outOf 0 = [(call, r)] := by
  induction is generalizing c p t with
  | nil =>
    cases h
    have := (hf t (by rw [hc]; exact List.mem_cons_self)).1
    rw [ht] at this
    cases this
  | cons i is ih =>
    obtain ⟨c1, h1, h2⟩ := Option.bind_eq_some_iff.1 h
    obtain ⟨t', ht', mv⟩ := step_eq h1
    rw [hc] at ht'
    cases i with
    | succ i => simp at ht'
    | zero =>
      cases ht'
      cases mv with
      | call h3 => rw [ht] at h3; cases h3
      | @ret call' r h3 =>
        rw [ht] at h3
        cases h3
        have hstop : is = [] ∨ ∃ j js, is = j :: js := by cases is <;> simp
        rcases hstop with rfl | ⟨j, js, rfl⟩
        · cases h2
          exact ⟨r, .done, by simp [outOf, hc, ho]⟩
        · obtain ⟨c2, h4, _⟩ := Option.bind_eq_some_iff.1 h2
          obtain ⟨t', ht', mv⟩ := step_eq h4
          simp only [hc] at ht'
          cases j with
          | succ i => simp at ht'
          | zero =>
            cases ht'
            cases mv with
            | call _ h5 => simp only [hd] at h5; cases h5
            | ret h5 => cases h5
            | prog h5 => cases h5
      | @prog call' p' m b hl k h3 h4 =>
        rw [ht] at h3
        cases h3
        obtain ⟨r, h5, h6⟩ := ih (c := { mem := m, threads := c.threads.set 0 { t with cur := some (call, k), waiting := b, held := hl } })
          (t := { t with cur := some (call, k), waiting := b, held := hl }) (p := k) (by simp [hc]) rfl hd ho h2
        refine ⟨r, ?_, h6⟩
        rcases stepProg_go h4 with ⟨rfl, rfl⟩ | h7
        · exact h5
        · exact .step h7 h5

/-- A single goroutine: every call but a decision does what the sequential model says, whatever locks it takes. -/
theorem C87_alone {w : V2} (inv : V2.Inv w) {call : LCall} (hv : call.Valid w) (hj : ∀ acts, call ≠ .judge acts) {is : List Nat} {c : Conf}
    (h : (start w [[call]]).run is = some c) (hf : c.Over) : ∃ r, c.outOf 0 = [(call, r)] ∧ Spec.Alone w c.mem r call := by
  cases is with
  | nil =>
    cases h
    have := (hf _ (List.mem_cons_self ..)).2
    cases this
  | cons i is =>
    obtain ⟨c1, h1, h2⟩ := Option.bind_eq_some_iff.1 h
    obtain ⟨t', ht', mv⟩ := step_eq h1
    cases i with
    | succ i => simp [start] at ht'
    | zero =>
      cases ht'
      cases mv with
      | ret h3 => cases h3
      | prog h3 => cases h3
      | @call call' rest h3 h4 =>
        cases h4
        obtain ⟨r, h5, h6⟩ := alone_run (call := call) (p := call.prog) (t := { cur := some (call, call.prog) }) rfl rfl rfl rfl h2 hf
        exact ⟨r, h6, alone_of_ends inv hv hj h5⟩

/-! ## Several goroutines -/

theorem ends_solo {call : LCall} {m m' : V2} {r : Option (List Str)} (h : call.Solo m m' r) : Prog.Ends call.prog m m' r := by
  obtain ⟨l, p, h1, h2⟩ := h
  rw [h1]
  refine Prog.ends_lock.2 ?_
  have key : ∀ {m1 : V2} {p1 : Prog}, Prog.Steps m p m1 p1 → Prog.Ends p1 m1 m' r → Prog.Ends p m m' r := by
    intro m1 p1 hs
    induction hs with
    | refl => exact id
    | tail _ h4 ih => exact fun e => ih (.step (Prog.go_of_adv h4) e)
  exact key h2 (Prog.ends_unlock.2 .done)

theorem shape_solo {F : Loc → Prop} {call : LCall} {m m' : V2} {r : Option (List Str)} (h1 : call.OneSection F) (h : call.Solo m m' r) : SameShape m' m := by
  obtain ⟨l, p, e, hs⟩ := h1
  obtain ⟨l', p', e', hp⟩ := h
  rw [e] at e'
  cases e'
  exact (Prog.steps_sec hs hp).2.1

theorem valid_shape {calls : List (List LCall)} {call : LCall} {m w : V2} (hg : call.Guarded calls) (s : SameShape m w) (h : call.Valid w) : call.Valid m := by
  cases call <;> simp only [LCall.Valid, LCall.Guarded, s.objs, s.tobjs, s.prs] at h hg ⊢ <;> exact h

theorem inTurn_of_solo {calls : List (List LCall)} {w m : V2} {L : Order} (inv : V2.Inv w)
    (hg : ∀ cs ∈ calls, ∀ call ∈ cs, LCall.Guarded calls call) (hv : ∀ cs ∈ calls, ∀ call ∈ cs, call.Valid w)
    (hL : ∀ e ∈ L, ∃ cs ∈ calls, e.2.1 ∈ cs) (h : SoloAll w L m) :
    Spec.InTurn w L m ∧ V2.Inv m ∧ SameShape m w ∧ ∃ ops, V2Op.run w ops = .ok m := by
  induction h with
  | nil => exact ⟨.nil, inv, .refl _, [], rfl⟩
  | @snoc L m1 m2 i call r h1 h2 ih =>
    obtain ⟨a1, a2, a3, ops, a4⟩ := ih fun e he => hL e (List.mem_append_left _ he)
    obtain ⟨cs, h3, h4⟩ := hL (i, call, r) (List.mem_append_right _ List.mem_cons_self)
    have hgc := hg cs h3 call h4
    have b := alone_of_ends a2 (valid_shape hgc a3 (hv cs h3 call h4)) (fun acts e => by subst e; exact hgc) (ends_solo h2)
    obtain ⟨ops', b2⟩ := ops_alone hgc b
    refine ⟨.snoc a1 b, ?_, (shape_solo (oneSection h3 h4 hg) h2).trans a3, ops ++ ops', ?_⟩
    · exact Out.loop_inv (P := V2.Inv) (fun _ _ _ _ hs hf => V2.inv_apply hs hf) a2 b2
    · unfold V2Op.run at *
      rw [Out.loop_append, a4]
      exact b2

theorem releases_append {is js : List Nat} {c c1 : Conf} (h : c.run is = some c1) : c.releases (is ++ js) = c.releases is ++ c1.releases js := by
  induction is generalizing c with
  | nil => cases h; rfl
  | cons i is ih =>
    obtain ⟨c2, h1, h2⟩ := Option.bind_eq_some_iff.1 h
    simp only [List.cons_append, releases, h1, ih h2, List.append_assoc]

theorem releases_from {P : LCall → Prop} {is : List Nat} {c : Conf}
    (hP : ∀ t ∈ c.threads, (∀ call ∈ t.todo, P call) ∧ ∀ call p, t.cur = some (call, p) → P call) :
    ∀ e ∈ c.releases is, e.1 < c.threads.length ∧ P e.2.1 := by
  induction is generalizing c with
  | nil => intro e he; cases he
  | cons i is ih =>
    intro e he
    rcases List.mem_append.1 he with he | he
    · unfold release at he
      split at he
      · rename_i call l b r hb
        obtain ⟨t, h1, h2⟩ := Option.bind_eq_some_iff.1 hb
        rw [List.mem_singleton] at he
        subst he
        exact ⟨(List.getElem?_eq_some_iff.1 h1).1, (hP t (List.mem_of_getElem? h1)).2 _ _ h2⟩
      · cases he
    · cases h : c.step i with
      | none => rw [h] at he; cases he
      | some c1 =>
        rw [h] at he
        obtain ⟨t, ht, mv⟩ := step_eq h
        have ht' := hP t (List.mem_of_getElem? ht)
        have key : ∀ (m : V2) (u : Thread), (∀ call ∈ u.todo, P call) → (∀ call p, u.cur = some (call, p) → P call) →
            e ∈ Conf.releases { mem := m, threads := c.threads.set i u } is → e.1 < c.threads.length ∧ P e.2.1 := fun m u h1 h2 he => by
          have := ih (c := { mem := m, threads := c.threads.set i u }) (fun v hv => by
            rcases List.mem_or_eq_of_mem_set hv with hv | rfl
            · exact hP v hv
            · exact ⟨h1, h2⟩) e he
          simpa using this
        cases mv with
        | @call call rest h1 h2 =>
          refine key _ _ (fun cl hc => ht'.1 cl (h2 ▸ List.mem_cons_of_mem _ hc)) (fun cl p hc => ?_) he
          cases hc
          exact ht'.1 _ (h2 ▸ List.mem_cons_self)
        | @ret call r h1 => exact key _ { t with cur := none, out := t.out ++ [(call, r)] } ht'.1 (fun _ _ hc => by cases hc) he
        | @prog call p m b hl k h1 h2 =>
          refine key m { t with cur := some (call, k), waiting := b, held := hl } ht'.1 (fun cl p hc => ?_) he
          cases hc
          exact ht'.2 _ _ h1

theorem run_length {is : List Nat} {c c1 : Conf} (h : c.run is = some c1) : c.threads.length = c1.threads.length := by
  induction is generalizing c with
  | nil => cases h; rfl
  | cons i is ih =>
    obtain ⟨c2, h1, h2⟩ := Option.bind_eq_some_iff.1 h
    rw [← ih h2]
    obtain ⟨t, ht, mv⟩ := step_eq h1
    cases mv <;> simp

theorem covers_releases {F : Loc → Prop} {w : V2} {calls : List (List LCall)} (hc : ∀ cs ∈ calls, ∀ call ∈ cs, call.OneSection F) {is : List Nat}
    {c1 : Conf} (h : (start w calls).run is = some c1) : c1.Covers ((start w calls).releases is) := by
  intro i
  obtain ⟨M, s⟩ := sim_run excl_start (sim_start hc) h
  rw [List.nil_append] at s
  cases hi : c1.threads[i]? with
  | none =>
    have hlen := (List.getElem?_eq_none_iff.1 hi)
    have : ((start w calls).releases is).of i = [] := by
      unfold Order.of
      rw [List.map_eq_nil_iff, List.filter_eq_nil_iff]
      intro e he h2
      have h3 := (releases_from (P := fun _ => True) (by simp) e he).1
      rw [run_length h] at h3
      have := eq_of_beq h2
      omega
    exact .inl (by rw [this]; simp [outOf, hi])
  | some t =>
    have e : c1.outOf i = t.out := by simp [outOf, hi]
    rw [e]
    cases s.phase i t hi with
    | idle _ _ h3 => exact .inl h3
    | before _ _ _ _ h3 => exact .inl h3
    | within _ _ _ _ h3 => exact .inl h3
    | @after call r h1 _ h3 => exact .inr ⟨call, _, r, h1, h3⟩

theorem timely_releases {F : Loc → Prop} {w : V2} {calls : List (List LCall)} (hc : ∀ cs ∈ calls, ∀ call ∈ cs, call.OneSection F) {is : List Nat} :
    (start w calls).Timely is ((start w calls).releases is) := by
  intro is1 is2 c1 e h
  subst e
  exact ⟨_, _, releases_append h, covers_releases hc h⟩

/-- Guarded calls: at any moment when no lock is held, memory is what the calls leave that have released their lock, made
one at a time in that order, which respects time. -/
theorem C87_quiet {w : V2} {calls : List (List LCall)} (inv : V2.Inv w) (hg : ∀ cs ∈ calls, ∀ call ∈ cs, LCall.Guarded calls call ∧ call.Valid w)
    {is : List Nat} {c : Conf} (h : (start w calls).run is = some c) (hf : ∀ t ∈ c.threads, t.held = []) :
    ∃ L, Spec.InTurn w L c.mem ∧ c.Covers L ∧ (start w calls).Timely is L ∧ ∃ ops, V2Op.run w ops = .ok c.mem := by
  have hg1 : ∀ cs ∈ calls, ∀ call ∈ cs, LCall.Guarded calls call := fun cs h1 call h2 => (hg cs h1 call h2).1
  have hs : ∀ cs ∈ calls, ∀ call ∈ cs, call.OneSection (Unchanged calls) := fun cs h1 call h2 => oneSection h1 h2 hg1
  obtain ⟨h1, h2, _, h3⟩ := inTurn_of_solo inv hg1 (fun cs h1 call h2 => (hg cs h1 call h2).2)
    (fun e he => (releases_from (P := fun call => ∃ cs ∈ calls, call ∈ cs) (fun t ht => by
      obtain ⟨cs, h4, rfl⟩ := List.mem_map.1 ht
      exact ⟨fun call h5 => ⟨cs, h4, h5⟩, fun _ _ h => by cases h⟩) e he).2) (serial_run hs h hf).1
  exact ⟨_, h1, covers_releases hs h, timely_releases hs, h3⟩

/-- Guarded calls behave like calls made one at a time, in an order that respects time. -/
theorem C87_serial_partial {w : V2} {calls : List (List LCall)} (inv : V2.Inv w)
    (hg : ∀ cs ∈ calls, ∀ call ∈ cs, LCall.Guarded calls call ∧ call.Valid w)
    {is : List Nat} {c : Conf} (h : (start w calls).run is = some c) (hf : c.Over) :
    ∃ L, Spec.InTurn w L c.mem ∧ (∀ i, L.of i = c.outOf i) ∧ (start w calls).Timely is L := by
  have hs : ∀ cs ∈ calls, ∀ call ∈ cs, call.OneSection (Unchanged calls) := fun cs h1 call h2 => oneSection h1 h2 fun cs h1 call h2 => (hg cs h1 call h2).1
  obtain ⟨M, s⟩ := sim_run excl_start (sim_start hs) h
  obtain ⟨L, h1, h3, h2, _⟩ := C87_quiet inv hg h fun t ht => by
    obtain ⟨i, hi⟩ := List.mem_iff_getElem?.1 ht
    have := (hf t ht).1
    cases s.phase i t hi with
    | idle _ h3 => exact h3
    | before h3 | within h3 | after h3 => rw [this] at h3; cases h3
  refine ⟨L, h1, fun i => ?_, h2⟩
  rcases h3 i with h4 | ⟨call, p, r, h4, _⟩
  · exact h4
  · obtain ⟨t, h5, h6⟩ := Option.bind_eq_some_iff.1 h4
    rw [(hf t (List.mem_of_getElem? h5)).1] at h6
    cases h6

/-! ## The calls that are left out -/

/-- Alice's assignment is registered, Bob's is not yet. -/
def exPair : V2 where
  prs := [{ principal := str "alice", tenant := str "t", role := str "r" }, { principal := str "bob", tenant := str "t", role := str "r" }]
  userRoles := [some 0]
  index := [(str "alice", [(str "t", [0])])]

/-- One goroutine removes Alice's assignment, the other registers Bob's. -/
def exRace : List (List LCall) :=
  [[.removePrincipalRole { principal := str "alice", tenant := str "t", role := str "r" }], [.addPrincipalRole [1]]]

/-- `RemovePrincipalRole` (v2/v2.go:114-169) holds no lock: the list is replaced by one computed before Bob's assignment came. -/
def exLost : List Nat := [0, 0, 0, 1, 1, 1, 1, 1, 1, 1, 1, 0, 0, 0, 0, 0, 0]

theorem exPair_run : V2Op.run {} [.newPrincipalRole { principal := str "alice", tenant := str "t", role := str "r" },
    .newPrincipalRole { principal := str "bob", tenant := str "t", role := str "r" }, .addPrincipalRole [0]] = .ok exPair := by decide +kernel

theorem exPair_inv : V2.Inv exPair := V2.reachable_inv exPair_run

set_option synthInstance.maxSize 4000 in
set_option synthInstance.maxHeartbeats 200000 in
/-- Bob's assignment is lost in the list, though both calls succeed; made one at a time they cannot do this. -/
theorem C87_counterexample : ((start exPair exRace).run exLost).map (fun c => (c.mem.userRoles, c.threads.map fun t => (t.cur.isSome, t.todo, t.out))) =
      some ([], [(false, [], [(.removePrincipalRole { principal := str "alice", tenant := str "t", role := str "r" }, none)]),
        (false, [], [(.addPrincipalRole [1], none)])]) ∧
    ((exPair.removePrincipalRole { principal := str "alice", tenant := str "t", role := str "r" }).bind fun x =>
      (x.2.addPrincipalRole [1]).map (·.userRoles)) = .ok [some 1] ∧
    ((exPair.addPrincipalRole [1]).bind fun x =>
      (x.removePrincipalRole { principal := str "alice", tenant := str "t", role := str "r" }).map (·.2.userRoles)) = .ok [none] := by
  refine ⟨?_, ?_, ?_⟩ <;> decide +kernel

theorem of_cons {e : Nat × LCall × Option (List Str)} {L : Order} {i : Nat} : Order.of (e :: L) i = if e.1 = i then e.2 :: L.of i else L.of i := by
  unfold Order.of
  by_cases h : e.1 = i <;> simp [h]

theorem of_nil {L : Order} (h : ∀ i, L.of i = []) : L = [] := by
  cases L with
  | nil => rfl
  | cons e L =>
    have := h e.1
    rw [of_cons, if_pos rfl] at this
    cases this

theorem of_single {L : Order} {x : LCall × Option (List Str)} {j : Nat} (h : ∀ i, L.of i = if i = j then [x] else []) : L = [(j, x)] := by
  cases L with
  | nil => have := h j; rw [if_pos rfl] at this; cases this
  | cons e L =>
    obtain ⟨k, z⟩ := e
    have hk := h k
    rw [of_cons, if_pos rfl] at hk
    split at hk
    · rename_i e
      subst e
      have hk2 := (List.cons.inj hk).2
      cases (List.cons.inj hk).1
      rw [of_nil (L := L) fun i => ?_]
      have := h i
      rw [of_cons] at this
      by_cases e : k = i
      · subst e; exact hk2
      · rw [if_neg e, if_neg (Ne.symm e)] at this
        exact this
    · cases hk

/-- Two goroutines with one call each: there are two orders. -/
theorem of_two {L : Order} {x y : LCall × Option (List Str)} (h : ∀ i, L.of i = if i = 0 then [x] else if i = 1 then [y] else []) :
    L = [(0, x), (1, y)] ∨ L = [(1, y), (0, x)] := by
  cases L with
  | nil => have := h 0; cases this
  | cons e L =>
    obtain ⟨j, z⟩ := e
    have hz := h j
    rw [of_cons, if_pos rfl] at hz
    by_cases h0 : j = 0
    · subst h0
      have hz2 := (List.cons.inj hz).2
      cases (List.cons.inj hz).1
      refine .inl ?_
      rw [of_single (L := L) (j := 1) fun i => ?_]
      have := h i
      rw [of_cons] at this
      by_cases e : 0 = i
      · subst e; exact hz2
      · rw [if_neg e, if_neg (Ne.symm e)] at this
        exact this
    · rw [if_neg h0] at hz
      by_cases h1 : j = 1
      · subst h1
        rw [if_pos rfl] at hz
        have hz2 := (List.cons.inj hz).2
        cases (List.cons.inj hz).1
        refine .inr ?_
        rw [of_single (L := L) (j := 0) fun i => ?_]
        have := h i
        rw [of_cons] at this
        by_cases e : 1 = i
        · subst e; exact hz2
        · rw [if_neg e, if_neg (Ne.symm e)] at this
          exact this
      · rw [if_neg h1] at hz; cases hz

theorem inTurn_two {w w' : V2} {a b : Nat × LCall × Option (List Str)} (h : Spec.InTurn w [a, b] w') :
    ∃ w1, Spec.Alone w w1 a.2.2 a.2.1 ∧ Spec.Alone w1 w' b.2.2 b.2.1 := by
  generalize hL : [a, b] = L at h
  cases h with
  | nil => cases hL
  | @snoc L w1 _ i call r h1 h2 =>
    have e : [a] ++ [b] = L ++ [(i, call, r)] := hL
    obtain ⟨rfl, h3⟩ := List.append_inj' e rfl
    cases h3
    refine ⟨w1, ?_, h2⟩
    generalize hL : [a] = L at h1
    cases h1 with
    | nil => cases hL
    | @snoc L w1 _ i call r h1 h2 =>
      have e : [] ++ [a] = L ++ [(i, call, r)] := hL
      obtain ⟨rfl, h3⟩ := List.append_inj' e rfl
      cases h3
      generalize hL : [] = L at h1
      cases h1 with
      | nil => exact h2
      | snoc => simp at hL

/-- C87. So the intended property fails. -/
theorem C87_full_false : ¬ C87_full := fun h => by
  obtain ⟨h1, h2, h3⟩ := C87_counterexample
  obtain ⟨c, hc, e⟩ := Option.map_eq_some_iff.1 h1
  obtain ⟨e1, e2⟩ := Prod.mk.inj e
  obtain ⟨t0, t1, ht⟩ : ∃ t0 t1, c.threads = [t0, t1] := by
    cases hl : c.threads with
    | nil => rw [hl] at e2; cases e2
    | cons t0 l =>
      cases l with
      | nil => rw [hl] at e2; simp at e2
      | cons t1 l =>
        cases l with
        | nil => exact ⟨t0, t1, rfl⟩
        | cons t2 l => rw [hl] at e2; simp at e2
  rw [ht] at e2
  simp only [List.map_cons, List.map_nil, List.cons.injEq, Prod.mk.injEq, and_true, Option.isSome_eq_false_iff, Option.isNone_iff_eq_none] at e2
  obtain ⟨⟨a1, a2, a3⟩, b1, b2, b3⟩ := e2
  obtain ⟨L, g1, g2, _⟩ := h exPair exRace exLost c exPair_inv (by
    intro cs hcs call hcall
    simp only [exRace, List.mem_cons, List.not_mem_nil, or_false] at hcs
    rcases hcs with rfl | rfl
    · rw [List.mem_singleton] at hcall
      subst hcall
      exact ⟨by simp [LCall.Valid, exPair], by simp⟩
    · rw [List.mem_singleton] at hcall
      subst hcall
      exact ⟨by simp [LCall.Valid, exPair], by simp⟩) hc (by
    intro t h
    rw [ht] at h
    simp only [List.mem_cons, List.not_mem_nil, or_false] at h
    rcases h with rfl | rfl
    · exact ⟨a1, a2⟩
    · exact ⟨b1, b2⟩)
  have g3 := of_two (L := L) (x := (.removePrincipalRole { principal := str "alice", tenant := str "t", role := str "r" }, none)) (y := (.addPrincipalRole [1], none)) fun i => by
    rw [g2 i]
    unfold outOf
    rw [ht]
    match i with
    | 0 => simp [a3]
    | 1 => simp [b3]
    | i + 2 => simp
  rcases g3 with rfl | rfl
  · obtain ⟨w1, ⟨b, k1, _⟩, k2, _⟩ := inTurn_two g1
    rw [k1] at h2
    simp only [Out.bind, k2, Out.map, e1] at h2
    cases h2
  · obtain ⟨w1, ⟨k1, _⟩, b, k2, _⟩ := inTurn_two g1
    rw [k1] at h3
    simp only [Out.bind, k2, Out.map, e1] at h3
    cases h3

/-! ## Examples -/

/-- Two roles, two tenants, one assignment, nothing registered. -/
def exBase : V2 where
  dag := { objs := [{ name := str "r" }, { name := str "s" }] }
  tobjs := [{ id := str "t", namespaces := [(str "n", [])], defNs := str "n" }, { id := str "u", namespaces := [(str "n", [])], defNs := str "n" }]
  prs := [{ principal := str "alice", tenant := str "t", role := str "r" }]

theorem exBase_inv : V2.Inv exBase := V2.reachable_inv (l := false)
  (ops := [.newRole (str "r"), .newRole (str "s"), .newTenant (str "t") (some (str "n")), .newTenant (str "u") (some (str "n")),
    .newPrincipalRole { principal := str "alice", tenant := str "t", role := str "r" }]) (by decide +kernel)

/-- Two goroutines make opposite edges, register roles, and work on the tenants. -/
def exMixed : List (List LCall) :=
  [[.addRoles [1], .addChildRole (str "r") [str "s"], .addNamespace 0 (str "m") true, .addTenant 0],
   [.addPermission 0 [{ resource := str "x", action := str "read" }], .addChildRole (str "s") [str "r"], .addChildTenant 1 [0], .addPrincipalRole [0], .addScopes 0 (str "m") [str "w"]]]

theorem exMixed_valid : ∀ cs ∈ exMixed, ∀ call ∈ cs, LCall.Guarded exMixed call ∧ call.Valid exBase := by
  simp [exMixed, LCall.Guarded, LCall.Valid, exBase]

-- `C87_serial_partial` says something here, for every schedule.
example {is : List Nat} {c : Conf} (h : (start exBase exMixed).run is = some c) (hf : c.Over) :
    ∃ L, Spec.InTurn exBase L c.mem ∧ (∀ i, L.of i = c.outOf i) ∧ (start exBase exMixed).Timely is L :=
  C87_serial_partial exBase_inv exMixed_valid h hf

/-- A schedule that takes turns. -/
def exTurns : List Nat :=
  [0, 1, 0, 1, 0, 1, 0, 1, 0, 1, 0, 1, 0, 1, 0, 1, 1, 1, 1, 1, 1, 0, 1, 0, 1, 0, 1, 0, 1, 0, 1, 0, 1, 0, 1, 0, 1, 0, 1, 0, 1, 0, 1, 0, 1, 0, 1, 0, 1, 0, 1, 0, 1, 0, 1, 0, 1, 0, 1, 0, 1, 0, 1, 0, 1, 1]

-- An execution with the two goroutines interleaved: the edge from `r` to `s` comes second and is refused.
set_option synthInstance.maxSize 4000 in
set_option synthInstance.maxHeartbeats 200000 in
example : ((start exBase exMixed).run exTurns).map (fun c => (c.threads.map fun t => (t.cur.isSome, t.todo.length, t.out.map (·.2)))) =
    some [(false, 0, [none, some [], none, none]), (false, 0, [none, none, none, none, none])] := by decide +kernel

-- `C87_alone`: `RemovePrincipalRole` by itself.
example {is : List Nat} {c : Conf} (h : (start exPair [[.removePrincipalRole { principal := str "alice", tenant := str "t", role := str "r" }]]).run is = some c) (hf : c.Over) :
    ∃ b, exPair.removePrincipalRole { principal := str "alice", tenant := str "t", role := str "r" } = .ok (b, c.mem) := by
  obtain ⟨r, _, b, h1, _⟩ := C87_alone exPair_inv (by simp [LCall.Valid, exPair]) (by simp) h hf
  exact ⟨b, h1⟩

end Conf
end Verif
