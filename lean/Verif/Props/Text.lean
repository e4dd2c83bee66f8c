import Verif.Props.Getters
import Verif.Model.Utils

/-!
# C67: texts of dynamic values, field filters and row keys
(utils/str.go:12-25, utils/filters.go:3-18, filters.go:16-186)
-/

namespace Verif
open Spec

/-- The number a string of decimal digits denotes (none if a byte is not a digit). -/
def readNat (acc : Nat) : Str → Option Nat
  | [] => some acc
  | c :: cs => if 48 ≤ c ∧ c ≤ 57 then readNat (acc * 10 + (c.toNat - 48)) cs else none

/-- The integer a decimal numeral denotes: digits with at most one leading minus. -/
def readInt : Str → Option Int
  | [] => none
  | c :: cs =>
    if c = 45 then (if cs = [] then none else (readNat 0 cs).map fun n => - (n : Int))
    else (readNat 0 (c :: cs)).map fun n => (n : Int)

theorem str_ofList (cs : List Char) : str (String.ofList cs) = cs.flatMap String.utf8EncodeChar := by
  simp [str, List.utf8Encode]

theorem digit_byte {c : Char} (hc : c.isDigit) : String.utf8EncodeChar c = [UInt8.ofNat c.toNat] ∧
    48 ≤ c.toNat ∧ c.toNat ≤ 57 := by
  have : 48 ≤ c.toNat ∧ c.toNat ≤ 57 := by
    simp only [Char.isDigit, ge_iff_le, Bool.and_eq_true, decide_eq_true_eq, UInt32.le_iff_toNat_le] at hc
    exact hc
  refine ⟨?_, this⟩
  unfold String.utf8EncodeChar
  have h : c.val.toNat ≤ 0x7f := by have := this.2; simp only [Char.toNat] at this; omega
  simp only [h, if_true]
  rfl

theorem readNat_digits {cs : List Char} (h : ∀ c ∈ cs, c.isDigit) (acc : Nat) :
    readNat acc (cs.flatMap String.utf8EncodeChar) = some (Nat.ofDigitChars 10 cs acc) := by
  induction cs generalizing acc with
  | nil => simp [readNat]
  | cons c cs ih =>
    obtain ⟨h1, h2, h3⟩ := digit_byte (h c (by simp))
    have hn : (UInt8.ofNat c.toNat).toNat = c.toNat := by
      rw [UInt8.toNat_ofNat']; omega
    rw [List.flatMap_cons, h1, List.singleton_append, readNat, Nat.ofDigitChars_cons, if_pos, ih fun d hd => h d (by simp [hd])]
    · rw [hn, Nat.mul_comm]; rfl
    · rw [UInt8.le_iff_toNat_le, UInt8.le_iff_toNat_le, hn]; exact ⟨h2, h3⟩

theorem natText (n : Nat) : ∃ c cs, str n.repr = c :: cs ∧ c ≠ 45 ∧ readNat 0 (c :: cs) = some n := by
  have hd : ∀ c ∈ Nat.toDigits 10 n, c.isDigit := fun c => Nat.isDigit_of_mem_toDigits (by decide) (by decide)
  have hr : readNat 0 (str n.repr) = some n := by
    rw [Nat.repr_eq_ofList_toDigits, str_ofList, readNat_digits hd, Nat.ofDigitChars_ten_toDigits]
  cases hs : str n.repr with
  | nil =>
    rw [Nat.repr_eq_ofList_toDigits, str_ofList] at hs
    cases hl : Nat.toDigits 10 n with
    | nil => exact absurd hl Nat.toDigits_ne_nil
    | cons c cs =>
      rw [hl, List.flatMap_cons, (digit_byte (hd c (by simp [hl]))).1] at hs
      simp at hs
  | cons c cs =>
    refine ⟨c, cs, rfl, ?_, hs ▸ hr⟩
    rintro rfl
    rw [hs] at hr
    revert hr
    simp [readNat]

theorem str_append (a b : String) : str (a ++ b) = str a ++ str b := by
  simp [str]

/-- C67. `ToString`: a string is its own text, nil has the empty text, the booleans are `true` and `false`, and an
integer is written in decimal. -/
theorem C67_toString :
    (∀ s, toStr (.str s) = s) ∧ toStr .nil = [] ∧
    toStr (.bool true) = [116, 114, 117, 101] ∧ toStr (.bool false) = [102, 97, 108, 115, 101] ∧
    ∀ n, readInt (toStr (.int n)) = some n := by
  refine ⟨fun _ => rfl, rfl, by decide, by decide, fun n => ?_⟩
  cases n with
  | ofNat n =>
    obtain ⟨c, cs, h1, h2, h3⟩ := natText n
    have : toStr (.int (Int.ofNat n)) = str n.repr := rfl
    rw [this, h1, readInt, if_neg h2, h3]; rfl
  | negSucc n =>
    obtain ⟨c, cs, h1, h2, h3⟩ := natText (n + 1)
    have : toStr (.int (Int.negSucc n)) = str ("-" ++ (n + 1).repr) := rfl
    rw [this, str_append, h1, show str "-" = [45] by decide, List.singleton_append, readInt, if_pos rfl, if_neg (by simp), h3]
    rfl

/-- C67: so different integers have different texts, and none has the text of nil or a boolean. -/
theorem C67_int_text (n : Int) :
    (∀ m, toStr (.int n) = toStr (.int m) → n = m) ∧ toStr (.int n) ≠ toStr .nil ∧
    ∀ b, toStr (.int n) ≠ toStr (.bool b) := by
  obtain ⟨-, h0, ht, hf, h⟩ := C67_toString
  refine ⟨fun m hm => ?_, fun hm => ?_, fun b hm => ?_⟩
  · have := h n; rw [hm, h m] at this; exact (Option.some.inj this).symm
  · have := h n; rw [hm, h0] at this; cases this
  · have := h n
    rw [hm] at this
    cases b
    · rw [hf] at this; simp [readInt, readNat] at this
    · rw [ht] at this; simp [readInt, readNat] at this

example : toStr (.int (-120)) = [45, 49, 50, 48] := by decide

/-- C67. `FilterByFields`: the row agrees with the filter on every given field, and none of them is nil. -/
theorem C67_filterByFields {α : Type} (filter row : α) (fields : List (α → Val)) :
    filterByFields filter row fields = true ↔ ∀ f ∈ fields, f row = f filter ∧ f row ≠ .nil := by
  induction fields with
  | nil => simp [filterByFields]
  | cons f fs ih =>
    rw [filterByFields]
    split
    · rename_i h
      simp only [Bool.false_eq_true, List.mem_cons, forall_eq_or_imp, false_iff, not_and]
      rcases h with h | h
      · exact fun h1 => absurd h h1.2
      · exact fun h1 => absurd h1.1 h
    · rename_i h
      rw [not_or, not_not] at h
      rw [ih]
      simp only [List.mem_cons, forall_eq_or_imp]
      exact ⟨fun h' => ⟨⟨h.2, h.1⟩, h'⟩, fun h' => h'.2⟩

example : filterByFields (α := Data) { tenant := .int 1, role := .int 2 } { tenant := .int 1, role := .int 3 }
      [(·.tenant)] = true ∧
    filterByFields (α := Data) { tenant := .int 1 } { tenant := .int 1 } [(·.tenant), (·.role)] = false := by decide

/-- C67. The key of a row: its non-nil fields in the order tenant, namespace, scope, principal, role, manage. -/
theorem C67_rowKey (t n s p r m : Val) :
    rowKey dataKeys ⟨t, n, s, p, r, m⟩ = [t, n, s, p, r, m].filter (· ≠ .nil) := rfl

/-- C67. The general filter: every field the filter sets is equal in the row. -/
theorem C67_filterFunc (f d : Data) : filterFunc f d = true ↔
    (f.tenant ≠ .nil → d.tenant = f.tenant) ∧ (f.namespace_ ≠ .nil → d.namespace_ = f.namespace_) ∧
    (f.scope ≠ .nil → d.scope = f.scope) ∧ (f.principal ≠ .nil → d.principal = f.principal) ∧
    (f.role ≠ .nil → d.role = f.role) ∧ (f.manage ≠ .nil → d.manage = f.manage) := by
  unfold filterFunc
  grind (splits := 40) [matchTenant, matchNamespace, matchScope, matchPrincipal, matchRole, isNil]

/-- C67. The row filters used outside the queries of C62, and those not used at all. -/
theorem C67_filters (f d : Data) :
    (filterTenant f d = true ↔ Is d.tenant f.tenant) ∧
    (filterRoleByTenant f d = true ↔ Is d.tenant f.tenant ∧ Is d.role f.role) ∧
    (filterScopeByTenantAndNamespace f d = true ↔
      Is d.tenant f.tenant ∧ Is d.namespace_ f.namespace_ ∧ d.scope ≠ .nil) ∧
    (filterPrincipalByTenantAndNamespace f d = true ↔
      Is d.tenant f.tenant ∧ Is d.namespace_ f.namespace_ ∧ Is d.principal f.principal) ∧
    (filterPrincipalByTenant f d = true ↔ Is d.tenant f.tenant ∧ Is d.principal f.principal) ∧
    (filterScopePrincipalByTenant f d = true ↔
      Is d.tenant f.tenant ∧ Is d.principal f.principal ∧ d.scope ≠ .nil ∧ d.role ≠ .nil) ∧
    (filterScopeForPrincipalByNamespace f d = true ↔ (f.namespace_ ≠ .nil ∨ f.principal ≠ .nil) ∧ d.scope ≠ .nil ∧
      d.tenant ≠ .nil ∧ (d.principal = .nil ∨ d.principal = f.principal)) := by
  unfold filterTenant filterRoleByTenant filterScopeByTenantAndNamespace filterPrincipalByTenantAndNamespace
    filterPrincipalByTenant filterScopePrincipalByTenant filterScopeForPrincipalByNamespace
  grind (splits := 40) [matchTenant, matchNamespace, matchScope, matchPrincipal, matchRole, isNil, Is]

/-- The namespace filter ignores the namespace: a row of another namespace passes. -/
example : filterScopeForPrincipalByNamespace { namespace_ := .int 1, principal := .int 2 }
    { tenant := .int 3, namespace_ := .int 4, scope := .int 5 } = true := by decide

end Verif
