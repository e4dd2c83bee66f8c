import Verif.Model.Audit

/-!
# C79: v2 audit records and status texts (v2/v2.go:302-325, v2/entities.go:52-64)
-/

namespace Verif

/-- The fields of a request under their record names. -/
def Req2.fields (r : Req2) : List (Str × Str) :=
  [(str "principal", r.principal), (str "tenant", r.tenant), (str "namespace", r.namespace_), (str "scope", r.scope),
   (str "resource", r.resource), (str "action", r.action)]

theorem auditArgs_eq (r : Req2) : auditArgs r = r.fields.filter fun f => f.2 ≠ [] := by
  have e : ∀ (k v : Str) (l : List (Str × Str)), auditArg k v (l.filter fun f => f.2 ≠ []) =
      (l ++ [(k, v)]).filter fun f => f.2 ≠ [] := by
    intro k v l
    rw [List.filter_append]
    unfold auditArg
    by_cases h : v = [] <;> simp [h]
  have h0 := e (str "principal") r.principal []
  rw [List.filter_nil] at h0
  unfold auditArgs
  rw [h0, e, e, e, e, e]
  rfl

/-- C79. A record has the non-empty fields of the request, each once, in the order principal, tenant, namespace, scope,
resource, action, and nothing else. -/
theorem C79_record (r : Req2) :
    (∀ k v, (k, v) ∈ auditArgs r ↔ (k, v) ∈ r.fields ∧ v ≠ []) ∧ (auditArgs r).Sublist r.fields ∧
    ((auditArgs r).map (·.1)).Nodup := by
  rw [auditArgs_eq]
  refine ⟨fun k v => by simp, List.filter_sublist, ?_⟩
  refine List.Nodup.sublist (List.filter_sublist.map _) ?_
  show [str "principal", str "tenant", str "namespace", str "scope", str "resource", str "action"].Nodup
  decide +kernel

/-- C79. The record identifies the request: two requests with equal records are equal. -/
theorem C79_identifies (r r' : Req2) (h : auditArgs r = auditArgs r') : r = r' := by
  have key : ∀ (k : Str) (f : Req2 → Str), (∀ r v, (k, v) ∈ Req2.fields r ↔ v = f r) → f r = f r' := by
    intro k f hf
    have m : ∀ v, (v = f r ∧ v ≠ []) ↔ (v = f r' ∧ v ≠ []) := by
      intro v
      rw [← hf r, ← hf r', ← (C79_record r).1, ← (C79_record r').1, h]
    by_cases h1 : f r = []
    · by_cases h2 : f r' = []
      · rw [h1, h2]
      · exact ((m (f r')).2 ⟨rfl, h2⟩).1.symm
    · exact ((m (f r)).1 ⟨rfl, h1⟩).1
  have h1 := key (str "principal") (·.principal) (fun r v => by unfold Req2.fields; simp (decide := true))
  have h2 := key (str "tenant") (·.tenant) (fun r v => by unfold Req2.fields; simp (decide := true))
  have h3 := key (str "namespace") (·.namespace_) (fun r v => by unfold Req2.fields; simp (decide := true))
  have h4 := key (str "scope") (·.scope) (fun r v => by unfold Req2.fields; simp (decide := true))
  have h5 := key (str "resource") (·.resource) (fun r v => by unfold Req2.fields; simp (decide := true))
  have h6 := key (str "action") (·.action) (fun r v => by unfold Req2.fields; simp (decide := true))
  cases r; cases r'; simp_all

/-- C79. The message tells a grant from every kind of refusal. -/
theorem C79_messages (m m' : Msg) : m.text = m'.text ↔ m = m' := by
  cases m <;> cases m' <;> decide +kernel

example : auditArgs { principal := str "p", tenant := str "t", action := str "GET" } =
    [(str "principal", str "p"), (str "tenant", str "t"), (str "action", str "GET")] := by decide +kernel

/-- C79. The five declared statuses have five different texts; a status outside them panics when printed. -/
theorem C79_status (t : Int) :
    ((t < 0 ∨ 5 ≤ t) ↔ statusText t = .panic) ∧
    (∀ s, statusText t = .ok s ↔ (t, s) ∈ [((0 : Int), str "active"), (1, str "inactive"), (2, str "pending"),
      (3, str "blocked"), (4, str "banned")]) ∧
    ∀ t' s, statusText t = .ok s → statusText t' = .ok s → t = t' := by
  have out : ∀ t : Int, t < 0 ∨ 5 ≤ t → statusText t = .panic := by
    intro t h
    unfold statusText
    rcases h with h | h
    · rw [if_pos h]
    · rw [if_neg (by omega), List.getElem?_eq_none (by simp; omega)]
  have val : ∀ t : Int, ¬ (t < 0 ∨ 5 ≤ t) → t = 0 ∨ t = 1 ∨ t = 2 ∨ t = 3 ∨ t = 4 := by intro t h; omega
  have iff : ∀ (t : Int) s, statusText t = .ok s ↔ (t, s) ∈ [((0 : Int), str "active"), (1, str "inactive"),
      (2, str "pending"), (3, str "blocked"), (4, str "banned")] := by
    intro t s
    by_cases h : t < 0 ∨ 5 ≤ t
    · rw [out t h]
      simp only [List.mem_cons, Prod.mk.injEq, List.not_mem_nil, or_false, reduceCtorEq, false_iff]
      rintro (⟨h1, -⟩ | ⟨h1, -⟩ | ⟨h1, -⟩ | ⟨h1, -⟩ | ⟨h1, -⟩) <;> omega
    · rcases val t h with rfl | rfl | rfl | rfl | rfl <;> simp [statusText, eq_comm]
  refine ⟨⟨out t, fun h => ?_⟩, iff t, fun t' s h h' => ?_⟩
  · refine Classical.byContradiction fun hn => ?_
    rcases val t hn with rfl | rfl | rfl | rfl | rfl <;> exact absurd h (by decide)
  · rw [iff] at h h'
    have inj : ∀ a ∈ [((0 : Int), str "active"), (1, str "inactive"), (2, str "pending"), (3, str "blocked"),
        (4, str "banned")], ∀ b ∈ [((0 : Int), str "active"), (1, str "inactive"), (2, str "pending"),
        (3, str "blocked"), (4, str "banned")], a.2 = b.2 → a = b := by decide +kernel
    exact congrArg Prod.fst (inj _ h _ h' rfl)

example : statusText 3 = .ok (str "blocked") ∧ statusText 5 = .panic := by decide +kernel

end Verif
