import Verif.Model.V2Authorizers
import Verif.Props.V2Cache

/-!
# Package v2: several authorizers in one program (C127, C128)
-/

namespace Verif
open Spec
namespace VMA
variable {W W' : World} {w w' v : V2} {a : V2} {j k : Nat} {op : V2Op} {cs : List Call} {rs : List R2} {ts : List T2} {us : List PR}

/-! ## A call on an object -/

theorem seen_seen {rs' : List R2} {ts' : List T2} {us' : List PR} : seen rs' ts' us' (seen rs ts us a) = seen rs' ts' us' a := rfl

theorem seen_self (w : V2) : seen w.dag.objs w.tobjs w.prs w = w := rfl

/-- One step of `AddChildTenant` on the tenants. -/
def childStep (c : Nat) (ts : List T2) (d : Nat) : Out (List T2) :=
  match ts[c]?, ts[d]? with
  | some t, some dt => .ok (ts.set c { t with children := t.children.set dt.id d })
  | _, _ => .panic

theorem addChild_eq (c : Nat) (ds : List Nat) (ts : List T2) :
    (seen rs ts us a).tAddChild c ds = (Out.loop (childStep c) ts ds).map fun ts => seen rs ts us a := by
  induction ds generalizing ts with
  | nil => rfl
  | cons d ds ih =>
    unfold V2.tAddChild at ih ⊢
    unfold Out.loop childStep V2.withT
    show Out.bind (match ts[c]? with | none => _ | some t => _) _ = _
    cases ts[c]? with
    | none => rfl
    | some t =>
      show Out.bind (match ts[d]? with | none => _ | some t => _) _ = _
      cases ts[d]? with
      | none => rfl
      | some dt => exact ih _

/-- A call on an object does the same whatever authorizer is looked at, and changes objects only. -/
theorem apply_objects (h : ofAuthorizer op = false) : op.apply (seen rs ts us a) =
    (op.apply (seen rs ts us {})).map fun x => seen x.dag.objs x.tobjs x.prs a := by
  cases op with
  | newRole n => rfl
  | addPermission i ps =>
    simp only [V2Op.apply, Dag.addPermission, seen]
    cases rs[i]? <;> rfl
  | removePermission i ps =>
    simp only [V2Op.apply, Dag.removePermission, seen]
    cases rs[i]? <;> rfl
  | newTenant id ns => rfl
  | addNamespace c n d =>
    simp only [V2Op.apply, V2.tAddNamespace, V2.withT, seen]
    cases ts[c]? <;> rfl
  | addScopes c n scs =>
    simp only [V2Op.apply, V2.tAddScope, V2.withT, seen]
    cases ts[c]? with
    | none => rfl
    | some t => dsimp only; cases t.namespaces.get n <;> rfl
  | addChildTenant c ds =>
    simp only [V2Op.apply]
    rw [addChild_eq, addChild_eq]
    cases Out.loop (childStep c) ts ds <;> rfl
  | setStatus c s =>
    simp only [V2Op.apply, V2.setStatus, V2.withT, seen]
    cases ts[c]? <;> rfl
  | newPrincipalRole u => rfl
  | setExpiry i now e =>
    simp only [V2Op.apply, V2Op.onPR, V2.prAt, seen]
    cases us[i]? <;> rfl
  | setExpiryDuration i parse now x =>
    simp only [V2Op.apply, V2Op.onPR, V2.prAt, seen]
    cases us[i]? <;> rfl
  | clearExpiry i =>
    simp only [V2Op.apply, V2Op.onPR, V2.prAt, seen]
    cases us[i]? <;> rfl
  | _ => cases h

/-! ## A call on an authorizer -/

theorem loop_keeps {σ : Type} {α β : Type} {f : σ → α → Out σ} {g : σ → β} {xs : List α} {s s' : σ}
    (hf : ∀ s s' x, f s x = .ok s' → g s' = g s) (h : Out.loop f s xs = .ok s') : g s' = g s :=
  Out.loop_inv (P := fun x => g x = g s) (fun s1 s2 x _ h1 h2 => (hf s1 s2 x h2).trans h1) rfl h

/-- A call on an authorizer changes no object and not its logger. -/
theorem apply_keeps (inv : w.Inv) (h : ofAuthorizer op = true) (ha : op.apply w = .ok w') :
    w'.dag.objs = w.dag.objs ∧ w'.tobjs = w.tobjs ∧ w'.prs = w.prs ∧ w'.logger = w.logger := by
  cases op with
  | addRoles as =>
    obtain ⟨d, h1, rfl⟩ := Out.map_eq_ok.1 ha
    refine ⟨loop_keeps (g := Dag.objs) (fun d d' i hf => ?_) h1, rfl, rfl, rfl⟩
    cases hi : d.objs[i]? with
    | none => rw [hi] at hf; cases hf
    | some r => rw [hi] at hf; cases hf; rfl
  | addChildRole fuel p cs =>
    obtain ⟨⟨b, d⟩, h1, rfl⟩ := Out.map_eq_ok.1 ha
    rcases (Dag.addChildRole_cases h1).2 with ⟨_, rfl⟩ | ⟨_, rfl⟩ <;> exact ⟨rfl, rfl, rfl, rfl⟩
  | addTenant c => obtain ⟨t, ps, _, rfl⟩ := V2.addTenant_eq ha; exact ⟨rfl, rfl, rfl, rfl⟩
  | setDefaultTenant t => cases ha; exact ⟨rfl, rfl, rfl, rfl⟩
  | addPrincipalRole is =>
    have key := loop_keeps (g := fun w : V2 => (w.dag.objs, w.tobjs, w.prs, w.logger)) (fun s s' i hf => by
      obtain ⟨u, _, g⟩ := Out.bind_eq_ok.1 hf
      cases g; rfl) ha
    exact ⟨congrArg (·.1) key, congrArg (·.2.1) key, congrArg (·.2.2.1) key, congrArg (·.2.2.2) key⟩
  | removePrincipalRole target =>
    obtain ⟨⟨b, d⟩, g, rfl⟩ := Out.map_eq_ok.1 ha
    rcases (V2.remove_eq g).2 with ⟨_, rfl, _⟩ | ⟨_, _, rfl⟩ <;> exact ⟨rfl, rfl, rfl, rfl⟩
  | authorize e fuel site r =>
    obtain ⟨⟨b, d⟩, g, rfl⟩ := Out.map_eq_ok.1 ha
    have := V2.authorize_run inv g
    exact ⟨this.dag.same.1, this.frame.tobjs, this.frame.prs, this.frame.logger⟩
  | can e fuel site r roles =>
    obtain ⟨⟨b, d⟩, g, rfl⟩ := Out.map_eq_ok.1 ha
    have := V2.can_run inv g
    exact ⟨this.dag.same.1, this.frame.tobjs, this.frame.prs, this.frame.logger⟩
  | _ => cases h

/-! ## Views -/

/-- Every authorizer is in order with the objects of the program. -/
def Inv (W : World) : Prop := ∀ k, (W.view k).Inv

theorem view_put (hk : k < W.auths.length) : (W.put k w).view k = w := by
  unfold World.view World.put
  simp only [List.getElem?_set_self hk, Option.getD_some]
  exact seen_seen.trans (seen_self w)

theorem view_put_ne (h : j ≠ k) (h1 : w.dag.objs = W.roles) (h2 : w.tobjs = W.tobjs) (h3 : w.prs = W.prs) :
    (W.put j w).view k = W.view k := by
  unfold World.view World.put
  simp only [List.getElem?_set_ne h, h1, h2, h3]

theorem view_putObjects (h : ofAuthorizer op = false) (ha : op.apply W.objects = .ok w) :
    op.apply (W.view k) = .ok ((W.putObjects w).view k) := by
  unfold World.view
  rw [apply_objects h]
  show Out.map _ (op.apply W.objects) = _
  rw [ha]; rfl

theorem view_none (h : W.auths.length ≤ k) : W.view k = W.objects := by
  unfold World.view World.objects
  rw [List.getElem?_eq_none h]; rfl

/-- What a call makes of every authorizer. -/
theorem call_view (inv : Inv W) (h : W.call j op = .ok W') (k : Nat) :
    if ofAuthorizer op = false ∨ j = k then op.apply (W.view k) = .ok (W'.view k) else W'.view k = W.view k := by
  unfold World.call at h
  cases ho : ofAuthorizer op with
  | false =>
    rw [if_neg (by simp [ho])] at h
    obtain ⟨w, h1, rfl⟩ := Out.map_eq_ok.1 h
    rw [if_pos (.inl rfl)]
    exact view_putObjects ho h1
  | true =>
    rw [if_pos ho] at h
    by_cases hj : j < W.auths.length
    · rw [if_pos hj] at h
      obtain ⟨w, h1, rfl⟩ := Out.map_eq_ok.1 h
      by_cases hjk : j = k
      · subst hjk
        rw [if_pos (.inr rfl), view_put hj, h1]
      · rw [if_neg (by simp [hjk])]
        obtain ⟨g1, g2, g3, _⟩ := apply_keeps (inv j) ho h1
        exact view_put_ne hjk g1 g2 g3
    · rw [if_neg hj] at h; cases h

theorem call_length (h : W.call j op = .ok W') : W'.auths.length = W.auths.length := by
  unfold World.call at h
  split at h
  · split at h
    · obtain ⟨w, h1, rfl⟩ := Out.map_eq_ok.1 h; simp [World.put]
    · cases h
  · obtain ⟨w, h1, rfl⟩ := Out.map_eq_ok.1 h; rfl

theorem view_new {l : Bool} (h : k ≠ W.auths.length) : World.view { W with auths := W.auths ++ [V2.newAuthorizer l] } k = W.view k := by
  unfold World.view
  by_cases hk : k < W.auths.length
  · simp only [List.getElem?_append_left hk]
  · have h1 : W.auths.length < k := by omega
    have h2 : (W.auths ++ [V2.newAuthorizer l]).length ≤ k := by simp; omega
    rw [List.getElem?_eq_none h2, List.getElem?_eq_none (by omega)]

theorem view_new_self {l : Bool} : World.view { W with auths := W.auths ++ [V2.newAuthorizer l] } W.auths.length =
    { W.objects with logger := l } := by
  unfold World.view
  simp only [List.getElem?_concat_length]
  rfl

theorem inv_logger (l : Bool) (inv : w.Inv) : V2.Inv { w with logger := l } :=
  ⟨inv.dag, inv.tenantsWF, inv.tenants, inv.nsWF, inv.childrenWF, inv.children, inv.users, inv.indexWF, inv.indexWF2, inv.indexed⟩

theorem inv_step (inv : Inv W) {c : Call} (h : W.step c = .ok W') : Inv W' := by
  intro k
  cases c with
  | new l =>
    cases h
    by_cases hk : k = W.auths.length
    · subst hk
      rw [view_new_self]
      have := inv W.auths.length
      rw [view_none (Nat.le_refl _)] at this
      exact inv_logger l this
    · rw [view_new hk]; exact inv k
  | on j op =>
    have := call_view inv h k
    split at this
    · exact V2.inv_apply (inv k) this
    · rw [this]; exact inv k

theorem inv_init : Inv {} := fun _ => V2.inv_init false

theorem inv_run (h : World.run {} cs = .ok W) : Inv W :=
  Out.loop_inv (P := Inv) (fun _ _ _ _ hs hf => inv_step hs hf) inv_init h

/-! ## C127 -/

/-- What authorizer `k` notices of a history: the calls on objects and the calls on itself, in order. -/
def noticed (k : Nat) : List Call → List V2Op := List.filterMap fun
  | .new _ => none
  | .on j op => if ofAuthorizer op = false ∨ j = k then some op else none

/-- C127. A call on authorizer `k`, or on an object, has the outcome it has in a program where `k` is alone with the objects:
it returns, panics or recurses without end alike, and leaves the same state. -/
theorem C127_exact (op : V2Op) (hk : k < W.auths.length) : (W.call k op).map (·.view k) = op.apply (W.view k) := by
  unfold World.call
  cases ho : ofAuthorizer op with
  | true =>
    rw [if_pos rfl, if_pos hk]
    cases h : op.apply (W.view k) with
    | ok w => exact congrArg Out.ok (view_put hk)
    | panic => rfl
    | diverge => rfl
  | false =>
    rw [if_neg (by simp)]
    cases h : op.apply W.objects with
    | ok w => exact (view_putObjects ho h).symm
    | panic =>
      unfold World.view
      rw [apply_objects ho]
      show _ = Out.map _ (op.apply W.objects)
      rw [h]; rfl
    | diverge =>
      unfold World.view
      rw [apply_objects ho]
      show _ = Out.map _ (op.apply W.objects)
      rw [h]; rfl

/-- C127. A call on one authorizer changes no role, tenant or assignment and nothing of any other authorizer. -/
theorem C127_others (inv : Inv W) (ho : ofAuthorizer op = true) (h : W.call j op = .ok W') :
    W'.roles = W.roles ∧ W'.tobjs = W.tobjs ∧ W'.prs = W.prs ∧ ∀ k, k ≠ j → W'.view k = W.view k := by
  unfold World.call at h
  rw [if_pos ho] at h
  split at h
  · obtain ⟨w, h1, rfl⟩ := Out.map_eq_ok.1 h
    obtain ⟨g1, g2, g3, _⟩ := apply_keeps (inv j) ho h1
    exact ⟨g1, g2, g3, fun k hk => view_put_ne (Ne.symm hk) g1 g2 g3⟩
  · cases h

/-- C127. Whatever is done to the other authorizers, `Authorize` and `Can` of authorizer `k` do not change. -/
theorem C127_decisions (inv : Inv W) (h : W.run cs = .ok W') (hk : k < W.auths.length)
    (hc : ∀ c ∈ cs, (∃ l, c = .new l) ∨ ∃ j op, c = .on j op ∧ j ≠ k ∧ ofAuthorizer op = true) (e : Env) (fuel : Nat) (site : List Val)
    (r : Req2) (roles : List Str) :
    W'.authorize k e fuel site r = W.authorize k e fuel site r ∧ W'.can k e fuel site r roles = W.can k e fuel site r roles := by
  have key : W'.view k = W.view k := by
    refine (Out.loop_inv (P := fun X : World => Inv X ∧ k < X.auths.length ∧ X.view k = W.view k) (fun X X' c hx hX hf => ?_) ⟨inv, hk, rfl⟩ h).2.2
    refine ⟨inv_step hX.1 hf, ?_⟩
    rcases hc c hx with ⟨l, rfl⟩ | ⟨j, op, rfl, h1, h2⟩
    · cases hf
      exact ⟨by simp; omega, (view_new (by omega)).trans hX.2.2⟩
    · exact ⟨by rw [call_length hf]; exact hX.2.1, ((C127_others hX.1 h2 hf).2.2.2 k (Ne.symm h1)).trans hX.2.2⟩
  exact ⟨by unfold World.authorize; rw [key], by unfold World.can; rw [key]⟩

theorem noticed_append (k : Nat) (cs ds : List Call) : noticed k (cs ++ ds) = noticed k cs ++ noticed k ds := List.filterMap_append

theorem run_snoc {x : Call} (h : World.run {} (cs ++ [x]) = .ok W) : ∃ V, World.run {} cs = .ok V ∧ V.step x = .ok W := by
  obtain ⟨V, g1, g2⟩ := Out.bind_eq_ok.1 (Out.loop_append.symm.trans h)
  refine ⟨V, g1, ?_⟩
  obtain ⟨X, h3, h4⟩ := Out.bind_eq_ok.1 g2
  cases h4; exact h3

theorem v2run_snoc {ops : List V2Op} {op : V2Op} : V2Op.run w (ops ++ [op]) = (V2Op.run w ops).bind op.apply := by
  unfold V2Op.run
  rw [Out.loop_append]
  congr 1
  funext s
  unfold Out.loop
  cases op.apply s <;> rfl

theorem apply_logger (h : ofAuthorizer op = false) (ha : op.apply w = .ok w') (l : Bool) :
    op.apply { w with logger := l } = .ok { w' with logger := l } := by
  have h1 : ({ w with logger := l } : V2) = seen w.dag.objs w.tobjs w.prs { w with logger := l } := rfl
  have h2 : op.apply (seen w.dag.objs w.tobjs w.prs w) = .ok w' := ha
  rw [h1, apply_objects h]
  rw [apply_objects h] at h2
  obtain ⟨x, g1, g2⟩ := Out.map_eq_ok.1 h2
  rw [g1, ← g2]; rfl

/-- C127. In any program every authorizer is in the state of an authorizer that is alone in its program and notices the calls
on objects and the calls on itself, in the order of the program.  So what holds for every history of one authorizer
holds for each of several. -/
theorem C127_alone (h : World.run {} cs = .ok W) (hk : k < W.auths.length) :
    V2Op.run (V2.newAuthorizer (W.view k).logger) (noticed k cs) = .ok (W.view k) := by
  suffices key : ∀ k, (k < W.auths.length → V2Op.run (V2.newAuthorizer (W.view k).logger) (noticed k cs) = .ok (W.view k)) ∧
      (W.auths.length ≤ k → ∀ l, V2Op.run (V2.newAuthorizer l) (noticed k cs) = .ok { W.objects with logger := l }) from (key k).1 hk
  clear hk
  induction hn : cs.length generalizing cs W with
  | zero =>
    obtain rfl := List.length_eq_zero_iff.1 hn
    cases h
    exact fun k => ⟨fun h => by simp at h, fun _ l => rfl⟩
  | succ n ih =>
    obtain ⟨ds, x, rfl⟩ : ∃ ds x, cs = ds ++ [x] :=
      ⟨cs.dropLast, cs.getLast (by intro h; simp [h] at hn), (List.dropLast_append_getLast _).symm⟩
    obtain ⟨V, h1, h2⟩ := run_snoc h
    have ih := ih h1 (by simp at hn; exact hn)
    have inv := inv_run h1
    intro k
    rw [noticed_append]
    cases x with
    | new l =>
      cases h2
      rw [show noticed k [.new l] = [] from rfl, List.append_nil]
      by_cases hk : k = V.auths.length
      · subst hk
        rw [view_new_self]
        exact ⟨fun _ => (ih _).2 (Nat.le_refl _) l, fun hh => by simp at hh; omega⟩
      · rw [view_new hk]
        exact ⟨fun hh => (ih k).1 (by simp at hh; omega), fun hh => (ih k).2 (by simp at hh; omega)⟩
    | on j op =>
      have hv := call_view inv h2 k
      rw [call_length h2]
      cases ho : ofAuthorizer op with
      | false =>
        rw [if_pos (.inl ho)] at hv
        rw [show noticed k [.on j op] = [op] by simp [noticed, ho], v2run_snoc, ]
        have hl : (W.view k).logger = (V.view k).logger := by
          unfold World.view at hv ⊢
          rw [apply_objects ho] at hv
          obtain ⟨y, _, g⟩ := Out.map_eq_ok.1 hv
          exact (congrArg V2.logger g).symm
        constructor
        · intro hk
          rw [hl, (ih k).1 hk]; exact hv
        · intro hk l
          rw [v2run_snoc, (ih k).2 hk l]
          rw [view_none hk] at hv
          have : W.view k = W.objects := view_none (by rw [call_length h2]; exact hk)
          rw [this] at hv
          exact apply_logger ho hv l
      | true =>
        have hj : j < V.auths.length := by
          have h3 : V.call j op = .ok W := h2
          unfold World.call at h3
          rw [if_pos ho] at h3
          split at h3
          · assumption
          · cases h3
        by_cases hjk : j = k
        · subst hjk
          rw [if_pos (.inr rfl)] at hv
          rw [show noticed j [.on j op] = [op] by simp [noticed], v2run_snoc]
          refine ⟨fun hk => ?_, fun hk => absurd hj (by omega)⟩
          have hl : (W.view j).logger = (V.view j).logger := (apply_keeps (inv j) ho hv).2.2.2
          rw [hl, (ih j).1 hk]; exact hv
        · rw [if_neg (by simp [ho, hjk])] at hv
          rw [show noticed k [.on j op] = [] by simp [noticed, ho, hjk], List.append_nil, hv]
          refine ⟨(ih k).1, fun hk l => ?_⟩
          obtain ⟨g1, g2, g3, _⟩ := C127_others inv ho h2
          rw [(ih k).2 hk l]
          unfold World.objects
          rw [g1, g2, g3]

/-- C127. So every grant of every authorizer is exact: it rests on the assignments and tenants registered in that authorizer, on
the objects as they are now, and on that authorizer's cached or current permissions of the roles. -/
theorem C127_grants (h : World.run {} cs = .ok W) {e : Env} {fuel : Nat} {site : List Val} {now : Int} (st : Steady (W.view k) e now)
    {r : Req2} (tw : ∀ c, Target (W.view k) r c → NoTwins (W.view k) r.principal c) {b : Bool}
    (ha : W.authorize k e fuel site r = .ok b) : b = true ↔ Grants2 (W.view k) now r := by
  obtain ⟨⟨b', w'⟩, h1, rfl⟩ := Out.map_eq_ok.1 ha
  exact V2.authorize_exact (inv_run h k) st tw h1

/-- Role "r", tenant "t" and an assignment to `p`, registered in authorizers 0 and 1. -/
def exShared : List Call :=
  [.new false, .new true] ++ (V2.exRoles ++ V2.exTenant ++ V2.exUser).map (.on 0) ++
    [.on 1 (.addRoles [0]), .on 1 (.addTenant 0), .on 1 (.addPrincipalRole [0])]

def exRemove : List Call := [.on 0 (.removePrincipalRole { principal := str "p" })]

def exExpire : List Call := [.on 7 (.setExpiry 0 10 20)]

/-- C127. Both authorizers grant; removing the assignment from the first leaves the access through the second; letting the
assignment object expire ends it in both. -/
example : ∃ W, World.run {} exShared = .ok W ∧ W.authorize 0 V2.exEnv 9 [] V2.exReq = .ok true ∧
    W.authorize 1 V2.exEnv 9 [] V2.exReq = .ok true ∧
    (W.run exRemove).bind (fun W => W.authorize 0 V2.exEnv 9 [] V2.exReq) = .ok false ∧
    (W.run exRemove).bind (fun W => W.authorize 1 V2.exEnv 9 [] V2.exReq) = .ok true ∧
    (W.run exExpire).bind (fun W => W.authorize 0 V2.exEnv 9 [] V2.exReq) = .ok false ∧
    (W.run exExpire).bind (fun W => W.authorize 1 V2.exEnv 9 [] V2.exReq) = .ok false :=
  Out.chk_ok (by decide +kernel)

/-- C127. What authorizer 1 notices of this history. -/
example : noticed 1 exShared = [.newRole (str "r"), .addPermission 0 [⟨str "x", str "read", []⟩], .newRole (str "q"),
    .addPermission 1 [⟨str "y", str "read", []⟩], .newTenant (str "t") (some (str "n")), .addScopes 0 (str "n") [str "s"],
    .newPrincipalRole { principal := str "p", tenant := str "t", role := str "r" }, .addRoles [0], .addTenant 0,
    .addPrincipalRole [0]] := rfl

/-! ## Objects keep their names -/

/-- Every element is still there and `g` of it is unchanged. -/
def Ext {α β : Type} (g : α → β) (l l' : List α) : Prop := ∀ (n : Nat) o, l[n]? = some o → ∃ o', l'[n]? = some o' ∧ g o' = g o

theorem Ext.refl {α β : Type} (g : α → β) (l : List α) : Ext g l l := fun _ o h => ⟨o, h, rfl⟩

theorem Ext.trans {α β : Type} {g : α → β} {l l' l'' : List α} (h : Ext g l l') (h' : Ext g l' l'') : Ext g l l'' := fun n o ho => by
  obtain ⟨o1, g1, g2⟩ := h n o ho
  obtain ⟨o2, g3, g4⟩ := h' n o1 g1
  exact ⟨o2, g3, g4.trans g2⟩

theorem Ext.append {α β : Type} (g : α → β) (l l' : List α) : Ext g l (l ++ l') := fun n o ho =>
  ⟨o, by rw [List.getElem?_append_left (List.getElem?_eq_some_iff.1 ho).1]; exact ho, rfl⟩

theorem Ext.set {α β : Type} {g : α → β} {l : List α} {i : Nat} {x y : α} (h : l[i]? = some x) (hg : g y = g x) : Ext g l (l.set i y) :=
  fun n o ho => by
    by_cases hn : i = n
    · subst hn
      rw [h] at ho; cases ho
      exact ⟨y, List.getElem?_set_self (List.getElem?_eq_some_iff.1 h).1, hg⟩
    · exact ⟨o, by rw [List.getElem?_set_ne hn]; exact ho, rfl⟩

/-- What no call changes in an assignment. -/
def fixed (u : PR) : Str × Str × Str × Str × Str := (u.principal, u.tenant, u.namespace_, u.scope, u.role)

/-- The objects of `w` are among given objects, with the same names. -/
structure Later (w : V2) (rs : List R2) (ts : List T2) (us : List PR) : Prop where
  roles : Ext R2.name w.dag.objs rs
  tenants : Ext T2.id w.tobjs ts
  prs : Ext fixed w.prs us

theorem Later.same (h : w'.dag.objs = w.dag.objs ∧ w'.tobjs = w.tobjs ∧ w'.prs = w.prs) :
    Later w w'.dag.objs w'.tobjs w'.prs := by
  rw [h.1, h.2.1, h.2.2]; exact ⟨.refl _ _, .refl _ _, .refl _ _⟩

theorem fixed_expiry (u : PR) (x : Option Int) : fixed { u with expiry := x } = fixed u := rfl

theorem later_onPR {i : Nat} {f : PR → PR} (hf : ∀ u, fixed (f u) = fixed u) (h : V2Op.onPR w i f = .ok w') :
    Later w w'.dag.objs w'.tobjs w'.prs := by
  obtain ⟨u, h1, rfl⟩ := Out.map_eq_ok.1 h
  obtain ⟨n, hn, h2⟩ := V2.prAt_eq_ok.1 h1
  cases hn
  exact ⟨.refl _ _, .refl _ _, .set h2 (hf u)⟩

theorem later_apply (inv : w.Inv) (h : op.apply w = .ok w') : Later w w'.dag.objs w'.tobjs w'.prs := by
  cases ho : ofAuthorizer op with
  | true =>
    obtain ⟨g1, g2, g3, _⟩ := apply_keeps inv ho h
    exact .same ⟨g1, g2, g3⟩
  | false =>
    cases op with
    | newRole n => cases h; exact ⟨.append _ _ _, .refl _ _, .refl _ _⟩
    | addPermission a ps =>
      obtain ⟨d, h1, rfl⟩ := Out.map_eq_ok.1 h
      obtain ⟨o, ho, rfl⟩ := Dag.addPermission_eq h1
      exact ⟨.set ho rfl, .refl _ _, .refl _ _⟩
    | removePermission a ps =>
      obtain ⟨d, h1, rfl⟩ := Out.map_eq_ok.1 h
      obtain ⟨o, ho, rfl⟩ := Dag.removePermission_eq h1
      exact ⟨.set ho rfl, .refl _ _, .refl _ _⟩
    | newTenant id ns => cases h; exact ⟨.refl _ _, .append _ _ _, .refl _ _⟩
    | addNamespace c n d =>
      obtain ⟨t, ht, g⟩ := V2.withT_eq_ok.1 h
      cases g
      exact ⟨.refl _ _, .set ht rfl, .refl _ _⟩
    | addScopes c n scs =>
      obtain ⟨⟨b, d⟩, g1, rfl⟩ := Out.map_eq_ok.1 h
      obtain ⟨t, ht, g2⟩ := V2.withT_eq_ok.1 g1
      split at g2 <;> cases g2
      · exact ⟨.refl _ _, .refl _ _, .refl _ _⟩
      · exact ⟨.refl _ _, .set ht rfl, .refl _ _⟩
    | addChildTenant c ds =>
      refine Out.loop_inv (P := fun x : V2 => Later w x.dag.objs x.tobjs x.prs) (fun s s' d _ hs hf => ?_) (.same ⟨rfl, rfl, rfl⟩) h
      obtain ⟨t, ht, g1⟩ := V2.withT_eq_ok.1 hf
      obtain ⟨dt, _, g2⟩ := V2.withT_eq_ok.1 g1
      cases g2
      exact ⟨hs.roles, hs.tenants.trans (.set ht rfl), hs.prs⟩
    | setStatus c s =>
      obtain ⟨t, ht, g⟩ := V2.withT_eq_ok.1 h
      cases g
      exact ⟨.refl _ _, .set ht rfl, .refl _ _⟩
    | newPrincipalRole u => cases h; exact ⟨.refl _ _, .refl _ _, .append _ _ _⟩
    | setExpiry i now e => exact later_onPR (fun u => by unfold PR.setExpiry; split <;> rfl) h
    | setExpiryDuration i parse now x =>
      refine later_onPR (fun u => ?_) h
      cases x with
      | str s => simp only [PR.setExpiryDuration]; split <;> rfl
      | dur d => rfl
      | other => rfl
    | clearExpiry i => exact later_onPR (f := fun u => u.clearExpiry) (fun u => rfl) h
    | _ => cases ho

/-! ## What an authorizer has registered depends on the calls on it alone -/

/-- The registries of `w`, with given objects without child tenants. -/
def recorded (rs : List R2) (ts : List T2) (us : List PR) (w : V2) : V2 :=
  { dag := { objs := rs, roles := w.dag.roles, edges := w.dag.edges }, tobjs := ts.map fun t => { t with children := [] }, prs := us
    tenants := w.tenants, defTenant := w.defTenant, userRoles := w.userRoles, index := w.index }

theorem recorded_objects (h : ofAuthorizer op = false) (ha : op.apply w = .ok w') : recorded rs ts us w' = recorded rs ts us w := by
  have h2 : op.apply (seen w.dag.objs w.tobjs w.prs w) = .ok w' := ha
  rw [apply_objects h] at h2
  obtain ⟨x, _, rfl⟩ := Out.map_eq_ok.1 h2
  rfl

theorem recorded_decides (inv : w.Inv) (h : op.decides = true) (ha : op.apply w = .ok w') : recorded rs ts us w' = recorded rs ts us w := by
  have key : ∀ {emit : R2 → List Str}, V2.Run emit w w' → recorded rs ts us w' = recorded rs ts us w := fun {emit} hr => by
    obtain ⟨h1, h2, h3⟩ := hr.dag.same
    have hf := hr.frame
    unfold V2.Frame at hf
    unfold recorded
    rw [h2, h3, hf]
  cases op with
  | authorize e fuel site r => obtain ⟨⟨b, d⟩, g, rfl⟩ := Out.map_eq_ok.1 ha; exact key (V2.authorize_run inv g)
  | can e fuel site r roles => obtain ⟨⟨b, d⟩, g, rfl⟩ := Out.map_eq_ok.1 ha; exact key (V2.can_run inv g)
  | _ => cases h

theorem addRole_recorded {as : List Nat} {d d' : Dag} (he : Ext R2.name d.objs rs) (h : d.addRole as = .ok d') :
    Dag.addRole { objs := rs, roles := d.roles, edges := d.edges } as = .ok { objs := rs, roles := d'.roles, edges := d'.edges } := by
  unfold Dag.addRole at h ⊢
  induction as generalizing d with
  | nil => cases h; rfl
  | cons a as ih =>
    obtain ⟨d1, h1, h2⟩ := Out.bind_eq_ok.1 h
    dsimp only at h1
    cases hr : d.objs[a]? with
    | none => rw [hr] at h1; cases h1
    | some r =>
      rw [hr] at h1; cases h1
      obtain ⟨r', g1, g2⟩ := he a r hr
      unfold Out.loop
      simp only [g1, g2, Out.bind_ok]
      exact ih (d := { d with roles := d.roles.set r.name a }) he h2

theorem dfs_edges {d d' : Dag} (h : d'.edges = d.edges) (n : Nat) : d'.dfs n = d.dfs n := by
  induction n with
  | zero => rfl
  | succ n ih =>
    funext r V
    unfold Dag.dfs
    rw [ih]
    unfold Dag.children
    rw [h]

theorem addChildRole_recorded {fuel : Nat} {p : Str} {cs : List Str} {d d' : Dag} {b : Bool} (h : d.addChildRole fuel p cs = .ok (b, d')) :
    Dag.addChildRole { objs := rs, roles := d.roles, edges := d.edges } fuel p cs =
      .ok (b, { objs := rs, roles := d'.roles, edges := d'.edges }) := by
  unfold Dag.addChildRole Dag.checkCircular at h ⊢
  rw [dfs_edges (d := d) (d' := { objs := rs, roles := d.roles, edges := d.edges }) rfl]
  obtain ⟨x, h1, h2⟩ := Out.map_eq_ok.1 h
  rw [h1]
  show Out.ok _ = _
  split at h2 <;> cases h2 <;> rename_i hx <;> simp [hx, Dag.children]

theorem addPR_recorded {is : List Nat} (he : Ext fixed w.prs us) (h : w.addPrincipalRole is = .ok w') :
    (recorded rs ts us w).addPrincipalRole is = .ok (recorded rs ts us w') := by
  unfold V2.addPrincipalRole at h ⊢
  induction is generalizing w with
  | nil => cases h; rfl
  | cons i is ih =>
    obtain ⟨w1, h1, h2⟩ := Out.bind_eq_ok.1 h
    obtain ⟨u, h3, h4⟩ := Out.bind_eq_ok.1 h1
    obtain ⟨n, hn, h5⟩ := V2.prAt_eq_ok.1 h3
    cases hn; cases h4
    obtain ⟨u', g1, g2⟩ := he i u h5
    have hu : (recorded rs ts us w).prAt (some i) = .ok u' := V2.prAt_eq_ok.2 ⟨i, rfl, g1⟩
    have e1 : u'.principal = u.principal := congrArg (·.1) g2
    have e2 : u'.tenant = u.tenant := congrArg (·.2.1) g2
    unfold Out.loop
    simp only [hu, Out.bind_ok, e1, e2]
    exact ih (w := { w with
      userRoles := w.userRoles ++ [some i]
      index := w.index.set u.principal (((w.index.get u.principal).getD []).set u.tenant
        ((((w.index.get u.principal).getD []).get u.tenant).getD [] ++ [i])) }) he h2

theorem loop_congr {σ α : Type} {f g : σ → α → Out σ} {xs : List α} (h : ∀ s, ∀ x ∈ xs, f s x = g s x) (s : σ) :
    Out.loop f s xs = Out.loop g s xs := by
  induction xs generalizing s with
  | nil => rfl
  | cons x xs ih =>
    unfold Out.loop
    rw [h s x (List.mem_cons_self ..)]
    congr 1
    funext s'
    exact ih (fun s y hy => h s y (List.mem_cons_of_mem _ hy)) s'

theorem collectI_congr {α β : Type} {f g : Nat → α → Out (List β)} {xs : List α} (h : ∀ n, ∀ x ∈ xs, f n x = g n x) (n : Nat) :
    Out.collectI f n xs = Out.collectI g n xs := by
  induction xs generalizing n with
  | nil => rfl
  | cons x xs ih =>
    unfold Out.collectI
    rw [h n x (List.mem_cons_self ..), ih (fun n y hy => h n y (List.mem_cons_of_mem _ hy))]

theorem matchesPR_fixed {target u u' : PR} (h : fixed u' = fixed u) : V2.matchesPR target u' = V2.matchesPR target u := by
  unfold V2.matchesPR
  rw [show u'.principal = u.principal from congrArg (·.1) h, show u'.tenant = u.tenant from congrArg (·.2.1) h,
    show u'.namespace_ = u.namespace_ from congrArg (·.2.2.1) h, show u'.scope = u.scope from congrArg (·.2.2.2.1) h,
    show u'.role = u.role from congrArg (·.2.2.2.2) h]

theorem matchesAt_recorded {target : PR} {x : Option Nat} (he : Ext fixed w.prs us) (hx : ∀ i, x = some i → ∃ u, w.prs[i]? = some u) :
    (recorded rs ts us w).matchesAt target x = w.matchesAt target x := by
  cases x with
  | none => rfl
  | some i =>
    obtain ⟨u, hu⟩ := hx i rfl
    obtain ⟨u', g1, g2⟩ := he i u hu
    rw [V2.matchesAt_some (w := recorded rs ts us w) g1, V2.matchesAt_some hu, matchesPR_fixed g2]

theorem remove_recorded {target : PR} {b : Bool} (inv : w.Inv) (he : Ext fixed w.prs us) (h : w.removePrincipalRole target = .ok (b, w')) :
    (recorded rs ts us w).removePrincipalRole target = .ok (b, recorded rs ts us w') := by
  have h1 : ∀ s, Out.loop ((recorded rs ts us w).removeStep target) s w.userRoles.zipIdx = Out.loop (w.removeStep target) s w.userRoles.zipIdx :=
    loop_congr fun s x hx => by
      unfold V2.removeStep
      rw [matchesAt_recorded he fun i hi => inv.users i (by
        rw [← hi]
        exact List.mem_of_getElem? (V2.mem_zipIdx_iff.1 hx))]
  have h2 : (recorded rs ts us w).keepIndex target w.index = w.keepIndex target w.index := by
    refine collectI_congr (fun _ e he1 => ?_) 0
    congr 1
    refine collectI_congr (fun _ f hf => ?_) 0
    congr 1
    refine collectI_congr (fun _ i hi => ?_) 0
    rw [matchesAt_recorded he fun n hn => by
      cases hn
      obtain ⟨u, hu, _⟩ := (inv.indexed e.1 e.2 f.1 f.2 he1 hf).2 i hi
      exact ⟨u, hu⟩]
  unfold V2.removePrincipalRole at h ⊢
  obtain ⟨s, g1, g2⟩ := Out.bind_eq_ok.1 h
  show Out.bind (Out.loop ((recorded rs ts us w).removeStep target) (List.replicate w.userRoles.length none, 0, false) w.userRoles.zipIdx) _ = _
  rw [h1, g1, Out.bind_ok]
  split at g2
  · rename_i hs
    cases g2
    rw [if_pos hs]
  · rename_i hs
    rw [if_neg hs]
    obtain ⟨ix, g3, g4⟩ := Out.map_eq_ok.1 g2
    cases g4
    show Out.map _ ((recorded rs ts us w).keepIndex target w.index) = _
    rw [h2, g3]; rfl

theorem recorded_registers (inv : w.Inv) (he : Later w rs ts us) (h1 : ofAuthorizer op = true) (h2 : op.decides = false)
    (ha : op.apply w = .ok w') : op.apply (recorded rs ts us w) = .ok (recorded rs ts us w') := by
  cases op with
  | addRoles as =>
    obtain ⟨d, g, rfl⟩ := Out.map_eq_ok.1 ha
    exact Out.map_eq_ok.2 ⟨_, addRole_recorded he.roles g, rfl⟩
  | addChildRole fuel p cs =>
    obtain ⟨⟨b, d⟩, g, rfl⟩ := Out.map_eq_ok.1 ha
    exact Out.map_eq_ok.2 ⟨_, addChildRole_recorded g, rfl⟩
  | addTenant c =>
    obtain ⟨t, ps, ht, rfl⟩ := V2.addTenant_eq ha
    obtain ⟨t', g1, g2⟩ := he.tenants c t ht
    refine V2.withT_eq_ok.2 ⟨{ t' with children := [] }, ?_, ?_⟩
    · show (ts.map _)[c]? = _
      rw [List.getElem?_map, g1]; rfl
    · show Out.ok _ = _
      unfold recorded
      rw [g2]
  | setDefaultTenant t => cases ha; rfl
  | addPrincipalRole is => exact addPR_recorded he.prs ha
  | removePrincipalRole target =>
    obtain ⟨⟨b, d⟩, g, rfl⟩ := Out.map_eq_ok.1 ha
    exact Out.map_eq_ok.2 ⟨_, remove_recorded inv he.prs g, rfl⟩
  | authorize => cases h2
  | can => cases h2
  | _ => cases h1

/-- The calls on authorizer `k` that register something or remove it. -/
def registered (k : Nat) : List Call → List V2Op := List.filterMap fun
  | .new _ => none
  | .on j op => if ofAuthorizer op = true ∧ op.decides = false ∧ j = k then some op else none

theorem step_later (inv : Inv W) {c : Call} (h : W.step c = .ok W') : Later W.objects W'.roles W'.tobjs W'.prs := by
  cases c with
  | new l => cases h; exact ⟨.refl _ _, .refl _ _, .refl _ _⟩
  | on j op =>
    have hv := call_view inv h j
    rw [if_pos (.inr rfl)] at hv
    have := later_apply (inv j) hv
    exact ⟨this.roles, this.tenants, this.prs⟩

theorem run_recorded (h : World.run {} cs = .ok W) (he : Later W.objects rs ts us) (k : Nat) :
    V2Op.run (recorded rs ts us {}) (registered k cs) = .ok (recorded rs ts us (W.view k)) := by
  revert k
  induction hn : cs.length generalizing cs W with
  | zero =>
    obtain rfl := List.length_eq_zero_iff.1 hn
    cases h
    exact fun k => rfl
  | succ n ih =>
    obtain ⟨ds, x, rfl⟩ : ∃ ds x, cs = ds ++ [x] :=
      ⟨cs.dropLast, cs.getLast (by intro h; simp [h] at hn), (List.dropLast_append_getLast _).symm⟩
    obtain ⟨V, h1, h2⟩ := run_snoc h
    have inv := inv_run h1
    have hl := step_later inv h2
    have he' : Later V.objects rs ts us := ⟨hl.roles.trans he.roles, hl.tenants.trans he.tenants, hl.prs.trans he.prs⟩
    have ih := ih h1 he' (by simp at hn; exact hn)
    intro k
    rw [show registered k (ds ++ [x]) = registered k ds ++ registered k [x] from List.filterMap_append]
    cases x with
    | new l =>
      cases h2
      rw [show registered k [.new l] = [] from rfl, List.append_nil, ih k]
      by_cases hk : k = V.auths.length
      · subst hk
        rw [view_new_self, view_none (Nat.le_refl _)]; rfl
      · rw [view_new hk]
    | on j op =>
      have hv := call_view inv h2 k
      cases ho : ofAuthorizer op with
      | false =>
        rw [if_pos (.inl ho)] at hv
        rw [show registered k [.on j op] = [] by simp [registered, ho], List.append_nil, ih k, recorded_objects ho hv]
      | true =>
        by_cases hjk : j = k
        · subst hjk
          rw [if_pos (.inr rfl)] at hv
          cases hd : op.decides with
          | true => rw [show registered j [.on j op] = [] by simp [registered, hd], List.append_nil, ih j, recorded_decides (inv j) hd hv]
          | false =>
            rw [show registered j [.on j op] = [op] by simp [registered, hd, ho], v2run_snoc, ih j]
            exact recorded_registers (inv j) ⟨he'.roles, he'.tenants, he'.prs⟩ ho hd hv
        · rw [if_neg (by simp [ho, hjk])] at hv
          rw [show registered k [.on j op] = [] by simp [registered, hjk], List.append_nil, ih k, hv]

/-! ## C128 -/

/-- The registries of the two agree. -/
def Alike (w v : V2) : Prop := w.dag.roles = v.dag.roles ∧ w.dag.edges = v.dag.edges ∧ w.tenants = v.tenants ∧ w.defTenant = v.defTenant ∧
  w.userRoles = v.userRoles ∧ w.index = v.index

/-- C128. What an authorizer has registered depends on the calls on it alone: not on the changes made to the objects meanwhile, on
the other authorizers, or on the decisions asked. -/
theorem C128_registries (h : World.run {} cs = .ok W) (hr : registered j cs = registered k cs) : Alike (W.view j) (W.view k) := by
  have hl : Later W.objects W.roles W.tobjs W.prs := ⟨.refl _ _, .refl _ _, .refl _ _⟩
  have h1 := run_recorded h hl j
  rw [hr, run_recorded h hl k] at h1
  have h2 := Out.ok.inj h1
  exact ⟨(congrArg (fun x : V2 => x.dag.roles) h2).symm, (congrArg (fun x : V2 => x.dag.edges) h2).symm, (congrArg V2.tenants h2).symm,
    (congrArg V2.defTenant h2).symm, (congrArg V2.userRoles h2).symm, (congrArg V2.index h2).symm⟩

/-- C128 as intended: two authorizers on which the same things were registered grant the same requests. -/
def C128_full : Prop := ∀ cs W j k e fuel site r now b b', World.run {} cs = .ok W → j < W.auths.length → k < W.auths.length →
  registered j cs = registered k cs → Steady (W.view j) e now → (∀ p c, NoTwins (W.view j) p c) →
  W.authorize j e fuel site r = .ok b → W.authorize k e fuel site r = .ok b' → b = b'

theorem grants_other {now : Int} {r : Req2} {ps : GoMap Str Nat} {l : Bool} {lg : List (Req2 × Msg)} :
    Grants2 { w with parents := ps, logger := l, log := lg } now r ↔ Grants2 w now r := by
  have hm : ∀ p c c', Managed { w with parents := ps, logger := l, log := lg } p c c' ↔ Managed w p c c' := fun p c c' => by
    constructor <;> intro h
    · induction h with
      | self => exact .self
      | child _ g1 g2 g3 ih => exact .child ih g1 g2 g3
    · induction h with
      | self => exact .self
      | child _ g1 g2 g3 ih => exact .child ih g1 g2 g3
  have hc : ∀ p c t, Covers { w with parents := ps, logger := l, log := lg } p c t ↔ Covers w p c t := fun p c t => by
    unfold Covers; simp only [hm]
  unfold Grants2 UsedPerm ScopedPerm UnscopedPerm
  simp only [hc]
  rfl

theorem alike_eq (h : Alike w v) (h1 : w.dag.objs = v.dag.objs) (h2 : w.tobjs = v.tobjs) (h3 : w.prs = v.prs) :
    V2.fresh w = { V2.fresh v with parents := w.parents, logger := w.logger, log := w.log } := by
  obtain ⟨⟨d1, d2, d3, d4⟩, w2, w3, w4, w5, w6, w7, w8, w9, w10⟩ := w
  obtain ⟨⟨d1', d2', d3', d4'⟩, v2, v3, v4, v5, v6, v7, v8, v9, v10⟩ := v
  obtain ⟨g1, g2, g3, g4, g5, g6⟩ := h
  simp only at h1 h2 h3 g1 g2 g3 g4 g5 g6
  subst h1 h2 h3 g1 g2 g3 g4 g5 g6
  rfl

theorem grants_alike {now : Int} {r : Req2} (h : Alike w v) (h1 : w.dag.objs = v.dag.objs) (h2 : w.tobjs = v.tobjs) (h3 : w.prs = v.prs) :
    Grants2 (V2.fresh w) now r ↔ Grants2 (V2.fresh v) now r := by
  rw [alike_eq h h1 h2 h3]; exact grants_other

theorem twins_alike (h : Alike w v) (h2 : w.tobjs = v.tobjs) (h3 : w.prs = v.prs) {p : Str} {c : Nat} (g : NoTwins w p c) : NoTwins v p c := by
  have hm : ∀ c', Managed v p c c' → Managed w p c c' := fun c' hc => by
    induction hc with
    | self => exact .self
    | child _ g1 g2 g3 ih =>
      refine .child ih (h2 ▸ g1) ?_ g3
      obtain ⟨u, ⟨i, k1, k2⟩, k3⟩ := g2
      exact ⟨u, ⟨i, h.2.2.2.2.1 ▸ k1, h3 ▸ k2⟩, k3⟩
  exact fun c1 c2 t1 t2 a1 a2 a3 a4 a5 => g c1 c2 t1 t2 (hm _ a1) (hm _ a2) (h2 ▸ a3) (h2 ▸ a4) a5

theorem steady_alike (h : Alike w v) (h3 : w.prs = v.prs) {e : Env} {now : Int} (g : Steady w e now) : Steady v e now := by
  rintro u ⟨i, k1, k2⟩
  exact g u ⟨i, h.2.2.2.2.1 ▸ k1, h3 ▸ k2⟩

/-- C128. Two authorizers on which the same things were registered grant the same requests, whatever was registered elsewhere,
changed on the objects or asked in between, if those of the principal's roles that one of them has cached are cached with
their current permissions.  Missing: roles cached with permissions they no longer have (see the counterexample). -/
theorem C128_partial (h : World.run {} cs = .ok W) (hr : registered j cs = registered k cs) {e e' : Env} {fuel fuel' : Nat}
    {site site' : List Val} {now : Int} (st : Steady (W.view j) e now) (st' : Steady (W.view j) e' now) {r : Req2}
    (tw : ∀ c, NoTwins (W.view j) r.principal c)
    (hf : ∀ i, i = j ∨ i = k → ∀ u, Assigned (W.view i) u → u.principal = r.principal →
      (∀ s, (u.role, s) ∉ (W.view i).dag.resolved) ∨ V2.Fits (W.view i).dag u.role)
    {b b' : Bool} (ha : W.authorize j e fuel site r = .ok b) (hb : W.authorize k e' fuel' site' r = .ok b') : b = b' := by
  have al := C128_registries h hr
  obtain ⟨⟨x, w1⟩, h1, rfl⟩ := Out.map_eq_ok.1 ha
  obtain ⟨⟨y, w2⟩, h2, rfl⟩ := Out.map_eq_ok.1 hb
  have k1 := V2.C47_roles_partial (inv_run h j) st (fun c _ => tw c) (hf j (.inl rfl)) h1
  have k2 := V2.C47_roles_partial (inv_run h k) (steady_alike al rfl st') (fun c _ => twins_alike al rfl rfl (tw c)) (hf k (.inr rfl)) h2
  rw [grants_alike al rfl rfl rfl] at k1
  exact Bool.eq_iff_iff.2 (k1.trans k2.symm)

theorem noticed_all {P : V2Op → Prop} (h : ∀ i op, .on i op ∈ cs → P op) (k : Nat) : ∀ op ∈ noticed k cs, P op := by
  intro op hop
  obtain ⟨c, h1, h2⟩ := List.mem_filterMap.1 hop
  cases c with
  | new l => cases h2
  | on i x =>
    dsimp only at h2
    split at h2
    · cases h2; exact h i _ h1
    · cases h2

/-- C128. So they agree in every program in which no role changes after the first decision and `Can` is not called. -/
theorem C128_histories_partial {setup rest : List Call} (h1 : ∀ i op, .on i op ∈ setup → op.decides = false)
    (h2 : ∀ i op, .on i op ∈ rest → op.changesRoles = false ∧ op.isCan = false) (h : World.run {} (setup ++ rest) = .ok W)
    (hj : j < W.auths.length) (hk : k < W.auths.length) (hr : registered j (setup ++ rest) = registered k (setup ++ rest)) {e e' : Env}
    {fuel fuel' : Nat} {site site' : List Val} {now : Int} (st : Steady (W.view j) e now) (st' : Steady (W.view j) e' now) {r : Req2}
    (tw : ∀ c, NoTwins (W.view j) r.principal c) {b b' : Bool} (ha : W.authorize j e fuel site r = .ok b)
    (hb : W.authorize k e' fuel' site' r = .ok b') : b = b' := by
  have al := C128_registries h hr
  obtain ⟨⟨x, w1⟩, g1, rfl⟩ := Out.map_eq_ok.1 ha
  obtain ⟨⟨y, w2⟩, g2, rfl⟩ := Out.map_eq_ok.1 hb
  have a1 := C127_alone h hj
  have a2 := C127_alone h hk
  rw [noticed_append] at a1 a2
  have k1 := V2.C47_histories_partial (noticed_all h1 j) (noticed_all h2 j) a1 st (fun c _ => tw c) g1
  have k2 := V2.C47_histories_partial (noticed_all h1 k) (noticed_all h2 k) a2 (steady_alike al rfl st')
    (fun c _ => twins_alike al rfl rfl (tw c)) g2
  rw [grants_alike al rfl rfl rfl] at k1
  exact Bool.eq_iff_iff.2 (k1.trans k2.symm)

/-- Role "r" and an assignment to `p`, registered in both; the first authorizer is asked, then the role loses its permission. -/
def exAlike : List Call :=
  [.new false, .new true] ++ (V2.exRoles ++ V2.exTenant ++ V2.exUser).map (.on 0) ++
    [.on 1 (.addRoles [0, 1]), .on 1 (.addTenant 0), .on 1 (.addPrincipalRole [0])]

def exAsked : List Call := [.on 0 (.authorize V2.exEnv 9 [] V2.exReq), .on 0 (.removePermission 0 [⟨str "x", str "read", []⟩])]

/-- C128. Before the question and the change both grant. -/
example : registered 0 exAlike = registered 1 exAlike ∧ ∃ W, World.run {} exAlike = .ok W ∧
    W.authorize 0 V2.exEnv 9 [] V2.exReq = .ok true ∧ W.authorize 1 V2.exEnv 9 [] V2.exReq = .ok true :=
  ⟨rfl, Out.chk_ok (by decide +kernel)⟩

/-- C128. The role of both authorizers has lost the permission, but the one that was asked before still grants it. -/
theorem C128_counterexample : registered 0 (exAlike ++ exAsked) = registered 1 (exAlike ++ exAsked) ∧
    ∃ W, World.run {} (exAlike ++ exAsked) = .ok W ∧ W.authorize 0 V2.exEnv 9 [] V2.exReq = .ok true ∧
      W.authorize 1 V2.exEnv 9 [] V2.exReq = .ok false ∧ W.tobjs.length = 1 ∧ W.auths.length = 2 :=
  ⟨rfl, Out.chk_ok (by decide +kernel)⟩

theorem C128_full_false : ¬ C128_full := by
  intro h
  obtain ⟨h1, W, h2, h3, h4, h5, h6⟩ := C128_counterexample
  have := h _ W 0 1 V2.exEnv 9 [] V2.exReq 100 true false h2 (by omega) (by omega) h1 (V2.steady_const fun _ => rfl)
    (fun p c => V2.noTwins_single (w := W.view 0) h5 p c) h3 h4
  cases this

end VMA
end Verif
