import Verif.Props.V1Assign

/-!
# Package v1: other principals have no influence on the decisions for a principal (C76)
-/

namespace Verif
open Spec
namespace V1
variable {w w' v : V1} {o o' : Ord} {fuel fuel' : Nat} {site site' : List Val}

/-- The states differ at most in the assignments of principals other than `p`. -/
structure SameOwn (p : Str) (w v : V1) : Prop where
  rest : v = { w with tps := v.tps, log := v.log }
  own : ∀ x, x.principal = p → (Row w x ↔ Row v x)

theorem SameOwn.symm {p : Str} (h : SameOwn p w v) : SameOwn p v w :=
  ⟨by rw [h.rest], fun x hx => (h.own x hx).symm⟩

theorem SameOwn.trans {p : Str} {z : V1} (h : SameOwn p w v) (g : SameOwn p v z) : SameOwn p w z :=
  ⟨by rw [g.rest, h.rest], fun x hx => (h.own x hx).trans (g.own x hx)⟩

theorem SameOwn.rowsOf {p : Str} (h : SameOwn p w v) : RowsOf v p = RowsOf w p := by
  funext T x
  unfold RowsOf
  refine propext ⟨fun ⟨a, b, c⟩ => ⟨(h.own x b).2 a, b, c⟩, fun ⟨a, b, c⟩ => ⟨(h.own x b).1 a, b, c⟩⟩

/-- A request with tenant, namespace and scope and neither group nor activity. -/
def TNS (r : Request) : Prop := Shape r true true true false false

theorem SameOwn.tenantAt {p : Str} (h : SameOwn p w v) {id : Str} {t : T1Obj} : TenantAt v id t ↔ TenantAt w id t := by
  unfold TenantAt; rw [h.rest]

theorem SameOwn.nsRole {p : Str} (h : SameOwn p w v) {t : T1Obj} {n id : Str} : NsRole v t n id ↔ NsRole w t n id := by
  unfold NsRole; rw [h.rest]

theorem SameOwn.nsScope {p : Str} (h : SameOwn p w v) {t : T1Obj} {n id : Str} : NsScope v t n id ↔ NsScope w t n id := by
  unfold NsScope; rw [h.rest]

theorem SameOwn.allowIn {p : Str} (h : SameOwn p w v) {t : T1Obj} {T n s id : Str} : AllowIn v t p T n s id ↔ AllowIn w t p T n s id := by
  unfold AllowIn Refused Candidate
  simp only [h.rowsOf, h.nsRole, h.nsScope]

theorem SameOwn.grants {p : Str} (h : SameOwn p w v) {r : Request} (hr : ¬ TNS r) (g : Grants1 w p r) : Grants1 v p r := by
  have et : v.tenants = w.tenants := by rw [h.rest]
  rcases g with ⟨a, b⟩ | ⟨a, x, t, b, c, d, e⟩ | ⟨a, x, t, b, c, d, e⟩ | ⟨a, x, b, c, d⟩ | ⟨a, x, b, c, d⟩ | ⟨a, x, b, c, d⟩ | ⟨a, _⟩
  · exact .inl ⟨a, et.symm ▸ b⟩
  · exact .inr (.inl ⟨a, x, t, (h.own x c).1 b, c, h.tenantAt.2 d, e⟩)
  · exact .inr (.inr (.inl ⟨a, x, t, (h.own x c).1 b, c, h.tenantAt.2 d, e⟩))
  · exact .inr (.inr (.inr (.inl ⟨a, x, (h.own x c).1 b, c, d⟩)))
  · exact .inr (.inr (.inr (.inr (.inl ⟨a, x, (h.own x c).1 b, c, d⟩))))
  · exact .inr (.inr (.inr (.inr (.inr (.inl ⟨a, x, (h.own x c).1 b, c, d⟩)))))
  · exact absurd a hr

theorem SameOwn.activity {p : Str} (h : SameOwn p w v) {act : Str} : ActivityGrant v p act ↔ ActivityGrant w p act := by
  unfold ActivityGrant
  simp only [h.rowsOf, h.tenantAt, h.allowIn]
  rw [h.rest]

theorem SameOwn.complex {p : Str} (h : SameOwn p w v) {r : Request} : ComplexGrant v p r ↔ ComplexGrant w p r := by
  unfold ComplexGrant
  simp only [h.rowsOf, h.tenantAt, h.allowIn]
  rw [h.rest]

/-- C76. Two states that differ at most in the assignments of other principals give a principal the same answers,
for every iteration order - except to requests with tenant, namespace and scope only. -/
theorem C76_authorize {p : Str} (inv : Inv w) (inv' : Inv v) (h : SameOwn p w v) {opts : List Opt} (hr : ¬ TNS (requestOf opts))
    {b b' : Bool} (h1 : w.authorize o fuel site p opts = .ok b) (h2 : v.authorize o' fuel' site' p opts = .ok b') : b = b' := by
  have ep : v.principals = w.principals := by rw [h.rest]
  by_cases hres : ResourceRequest (requestOf opts)
  · rw [Bool.eq_iff_iff, C37_exact inv hres h1, C37_exact inv' hres h2, ep]
    exact and_congr_right fun _ => ⟨h.grants hr, h.symm.grants hr⟩
  · rw [Bool.eq_iff_iff, C41_exact inv hres h1, C41_exact inv' hres h2, ep, h.activity, h.complex]

/-! ## Histories -/

/-- The call assigns to a principal `q` other than `p` that does not have the form `p_...`. -/
def Apart (p q : Str) : Prop := q ≠ p ∧ ¬ (p ++ [95]) <+: q

/-- The principal a call assigns to, if it assigns to one. -/
def _root_.Verif.V1Op.assignee : V1Op → Option Str
  | .addPrincipalRole q .. | .tAddPrincipalRole _ q .. | .tAddPrincipal _ q _ | .tAddPrincipalInNamespace _ _ _ q _ _
  | .tAssignScopesToPrincipal _ _ _ q _ | .tAssignScopesWithRole _ _ _ q _ _ => some q
  | _ => none

/-- C76 as intended: assignments to other principals do not change an answer for `p`. -/
def C76_full : Prop := ∀ (ops ops' : List V1Op) (w v : V1) (p : Str) (opts : List Opt) (o o' : Ord) (fuel fuel' : Nat)
  (site site' : List Val) (b b' : Bool), V1Op.run {} ops = .ok w → V1Op.run w ops' = .ok v →
  (∀ op ∈ ops', ∃ q, op.assignee = some q ∧ q ≠ p) →
  w.authorize o fuel site p opts = .ok b → v.authorize o' fuel' site' p opts = .ok b' → b = b'

/-- The principal read back from a stored text is the one assigned to, or what precedes its first `_`. -/
theorem fields_principal {y x : TP} (h : Fields (encode y) x) : x.principal = y.principal ∨ (x.principal ++ [95]) <+: y.principal := by
  obtain ⟨flag, rest, hc, _, _, _, he⟩ := h
  have he : y.principal ++ 95 :: (y.role ++ str "_" ++ y.tenant ++ str "_" ++ y.namespace_ ++ str "_" ++ y.scope ++
    str "_" ++ (if y.manage then str "true" else str "false")) = x.principal ++ 95 :: (x.role ++ 95 :: (x.tenant ++ 95 :: (x.namespace_ ++ 95 :: (x.scope ++ 95 ::
      (flag ++ rest))))) := by
    rw [← he]; unfold encode
    have u : str "_" = [95] := by decide
    simp [u]
  rcases List.append_eq_append_iff.1 he with ⟨c, h1, h2⟩ | ⟨c, h1, h2⟩
  · cases c with
    | nil => left; simpa using h1
    | cons a c =>
      simp only [List.cons_append, List.cons.injEq] at h2
      exact absurd (by rw [h1, ← h2.1]; simp) hc.1
  · cases c with
    | nil => left; simpa using h1.symm
    | cons a c =>
      simp only [List.cons_append, List.cons.injEq] at h2
      right; rw [h1, ← h2.1]; exact ⟨c, by simp⟩

theorem added_own {p q : Str} (hq : Apart p q) {P : TP → Prop} (h : Added w v P) (hP : ∀ x, P x → x.principal = q) : SameOwn p w v := by
  refine ⟨h.2.2, fun x hx => ⟨fun ⟨k, h1, h2⟩ => ⟨k, (h.2.1 k).2 (.inl h1), h2⟩, ?_⟩⟩
  rintro ⟨k, h1, h2⟩
  rcases (h.2.1 k).1 h1 with h1 | ⟨y, h3, rfl⟩
  · exact ⟨k, h1, h2⟩
  · have := fields_principal h2
    rw [hP y h3, hx] at this
    rcases this with h4 | h4
    · exact absurd h4.symm hq.1
    · exact absurd h4 hq.2

theorem role_own {p q r : Str} (hq : Apart p q) {c : Nat} {ns : Option Nat} {sc : Option Str} {m : List Bool}
    (h : w.addPrincipalRole q r c ns sc m = .ok v) : SameOwn p w v := by
  unfold addPrincipalRole at h
  cases hc : w.tobjs[c]? with
  | none => rw [hc] at h; cases h
  | some dt =>
    rw [hc] at h
    obtain ⟨n, hn, _⟩ := Out.map_eq_ok.1 h
    have hn' : (ns = none ∧ n = []) ∨ ∃ a no, ns = some a ∧ w.nsobjs[a]? = some no ∧ no.id = n := by
      cases ns with
      | none => left; cases hn; exact ⟨rfl, rfl⟩
      | some a =>
        right
        unfold nsID at hn
        cases ha : w.nsobjs[a]? with
        | none => simp [ha] at hn
        | some no => simp [ha] at hn; exact ⟨a, no, rfl, ha, hn⟩
    obtain ⟨w1, g1, g2, _⟩ := C43_addPrincipalRole (p := q) (r := r) hc hn' (sc := sc) (s := sc.getD []) (by cases sc <;> simp)
      (m := m) (b := m.headD true) (by cases m <;> simp)
    have : w1 = v := by
      have h' : w.addPrincipalRole q r c ns sc m = .ok v := by unfold addPrincipalRole; rw [hc]; exact h
      rw [h'] at g1; cases g1; rfl
    subst this
    exact added_own hq g2 fun x hx => hx.2.1

theorem foreign_step {p q : Str} {op : V1Op} (inv : Inv w) (ha : op.assignee = some q) (hq : Apart p q) (h : op.apply w = .ok v) :
    SameOwn p w v := by
  cases op with
  | addPrincipalRole q' r c ns sc m => cases ha; exact role_own hq h
  | tAddPrincipalRole c q' r d ns sc m =>
    cases ha
    obtain ⟨t, _, h⟩ := withT_eq_ok.1 h
    split at h
    · exact role_own hq h
    · cases h
  | tAddPrincipal c q' rs =>
    cases ha
    obtain ⟨t, ht, _⟩ := withT_eq_ok.1 h
    exact added_own hq (C43_addPrincipal ht h) fun x hx => hx.2.1
  | tAddPrincipalInNamespace o site c q' n rs =>
    cases ha
    obtain ⟨t, ht, _⟩ := withT_eq_ok.1 h
    cases rs with
    | nil => exact added_own hq (C43_addPrincipalInNamespace_copy inv ht h) fun x hx => hx.2.2.1
    | cons r rs => exact added_own hq (C43_addPrincipalInNamespace inv ht (by simp) h) fun x hx => hx.2.2.1
  | tAssignScopesToPrincipal o site c q' ss =>
    cases ha
    obtain ⟨t, ht, _⟩ := withT_eq_ok.1 h
    exact added_own hq (C43_assignScopesToPrincipal ht h) fun x hx => hx.2.2.1
  | tAssignScopesWithRole o site c q' r ss =>
    cases ha
    by_cases hs : ss.length = 0
    · have h' : w.tAssignScopesWithRole o site c q r ss = .ok v := h
      unfold tAssignScopesWithRole at h'
      rw [if_pos hs] at h'; cases h'
      exact ⟨rfl, fun _ _ => .rfl⟩
    · have h' : w.tAssignScopesWithRole o site c q r ss = .ok v := h
      unfold tAssignScopesWithRole at h'
      rw [if_neg hs] at h'
      obtain ⟨t, ht, _⟩ := withT_eq_ok.1 h'
      exact added_own hq (C43_assignScopesWithRole ht h) fun x hx => hx.2.2.1
  | _ => cases ha

theorem foreign_run {p : Str} {ops : List V1Op} (inv : Inv w) (hf : ∀ op ∈ ops, ∃ q, op.assignee = some q ∧ Apart p q)
    (h : V1Op.run w ops = .ok v) : SameOwn p w v := by
  induction ops generalizing w with
  | nil => cases h; exact ⟨rfl, fun _ _ => .rfl⟩
  | cons op ops ih =>
    obtain ⟨w1, h1, h2⟩ := Out.bind_eq_ok.1 h
    obtain ⟨q, ha, hq⟩ := hf op (by simp)
    have inv1 : Inv w1 := (V1Op.run_good (ops := [op]) (by show (op.apply w).bind _ = _; rw [h1]; rfl) inv).1
    exact (foreign_step inv ha hq h1).trans (ih inv1 (fun op hop => hf op (by simp [hop])) h2)

/-- C76 for histories: assignments to principals whose ids do not start with `p_` change no answer for `p`, whatever
the roles, tenants, namespaces and scopes are called - except to requests with tenant, namespace and scope only. -/
theorem C76_histories_partial {p : Str} {ops ops' : List V1Op} (h1 : V1Op.run {} ops = .ok w) (h2 : V1Op.run w ops' = .ok v)
    (hf : ∀ op ∈ ops', ∃ q, op.assignee = some q ∧ Apart p q) {opts : List Opt} (hr : ¬ TNS (requestOf opts))
    {b b' : Bool} (h3 : w.authorize o fuel site p opts = .ok b) (h4 : v.authorize o' fuel' site' p opts = .ok b') : b = b' :=
  have inv := V1Op.reachable_inv h1
  C76_authorize inv (V1Op.run_good h2 inv).1 (foreign_run inv hf h2) hr h3 h4

/-! ## A concrete case -/

/-- Tenant `t` with namespace `n`, scope `s` and role `r`; principals `p`, `x` and `p_r`, of which only `p` has the role. -/
def exIso : List V1Op := [
  .newTenant (str "t"), .newNamespace (str "n"), .addTenant 0, .addNamespace 0,
  .role (.newRole (str "r")), .addRole 0, .role (.addPerm 0 (str "g") [⟨str "/a", str "GET"⟩]),
  .addPrincipal (str "p") 0, .addPrincipal (str "x") 1, .addPrincipal (str "p_r") 2,
  .tAddRole 0 [0], .tAddScopes 0 [(str "s", 0)], .tAddNamespace 0 [0],
  .addPrincipalRole (str "p") (str "r") 0 none none []]

/-- Every assigning call, for principal `x`; ids of roles and scopes may contain `_`. -/
def exIsoOthers : List V1Op := [
  .addPrincipalRole (str "x") (str "r_t") 0 (some 0) (some (str "s")) [],
  .tAddPrincipalRole 0 (str "x") (str "r") 0 none none [],
  .tAddPrincipal 0 (str "x") [str "r"],
  .tAddPrincipalInNamespace .fwd [] 0 (str "x") (str "n") [str "r"],
  .tAssignScopesToPrincipal .fwd [] 0 (str "x") [str "s"],
  .tAssignScopesWithRole .fwd [] 0 (str "x") (str "r") [str "s"]]

instance (p q : Str) : Decidable (Apart p q) := by unfold Apart; infer_instance

/-- The calls of `exIsoOthers` meet the hypotheses of `C76_histories_partial`; they store rows, `p` keeps its answers
and `x` gains. -/
example : (∀ op ∈ exIsoOthers, ∃ q, op.assignee = some q ∧ Apart (str "p") q) ∧
    ¬ TNS (requestOf [.tenant (.str (str "t")), .scope (.str (str "s"))]) ∧
    ∃ w, V1Op.run {} exIso = .ok w ∧ (V1Op.run w exIsoOthers).Chk fun v => (w.tps.length < v.tps.length ∧
      w.authorize .fwd 9 [] (str "p") [.tenant (.str (str "t")), .group (.str (str "g")), .activity (.str (str "/a GET"))] = .ok true ∧
      v.authorize .rev 9 [] (str "p") [.tenant (.str (str "t")), .group (.str (str "g")), .activity (.str (str "/a GET"))] = .ok true ∧
      w.authorize .fwd 9 [] (str "p") [.scope (.str (str "s"))] = .ok false ∧
      v.authorize .fwd 9 [] (str "p") [.scope (.str (str "s"))] = .ok false ∧
      w.authorize .fwd 9 [] (str "x") [.scope (.str (str "s"))] = .ok false ∧
      v.authorize .fwd 9 [] (str "x") [.scope (.str (str "s"))] = .ok true) := by
  refine ⟨?_, by unfold TNS Shape; decide, Out.chk_ok (by decide +kernel)⟩
  intro op hop
  simp only [exIsoOthers, List.mem_cons, List.not_mem_nil, or_false] at hop
  rcases hop with rfl | rfl | rfl | rfl | rfl | rfl <;> exact ⟨_, rfl, by decide⟩

/-- A namespace and scope given to `x` in tenant `t` turns the answer for `p` from denied to granted. -/
theorem C76_borrow_counterexample : ∃ w, V1Op.run {} exIso = .ok w ∧
    (V1Op.run w [.addPrincipalRole (str "x") (str "r") 0 (some 0) (some (str "s")) []]).Chk fun v =>
      (w.authorize .fwd 9 [] (str "p") [.tenant (.str (str "t")), .namespace_ (.str (str "n")), .scope (.str (str "s"))] = .ok false ∧
      v.authorize .fwd 9 [] (str "p") [.tenant (.str (str "t")), .namespace_ (.str (str "n")), .scope (.str (str "s"))] = .ok true) :=
  Out.chk_ok (by decide +kernel)

/-- A role given to principal `p_r` is read back as an assignment of `p`: its role moves to the tenant, its tenant to
the namespace. -/
theorem C76_forge_counterexample : ∃ w, V1Op.run {} exIso = .ok w ∧
    (V1Op.run w [.addPrincipalRole (str "p_r") (str "r") 0 none none []]).Chk fun v =>
      (w.authorize .fwd 9 [] (str "p") [.tenant (.str (str "r")), .namespace_ (.str (str "t"))] = .ok false ∧
      v.authorize .fwd 9 [] (str "p") [.tenant (.str (str "r")), .namespace_ (.str (str "t"))] = .ok true) :=
  Out.chk_ok (by decide +kernel)

/-- C76 as intended fails. -/
theorem C76_full_false : ¬ C76_full := by
  intro hf
  obtain ⟨w, h1, h2⟩ := C76_borrow_counterexample
  obtain ⟨v, h2, h3, h4⟩ := Out.chk_ok h2
  exact absurd (hf _ _ w v _ _ _ _ _ _ _ _ _ _ h1 h2
    (fun op hop => by simp only [List.mem_singleton] at hop; subst hop; exact ⟨_, rfl, by decide⟩) h3 h4) (by decide)

end V1
end Verif
