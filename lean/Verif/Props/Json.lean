import Verif.Model.Json
import Verif.Props.Bulk
import Verif.Props.Getters
import Mathlib.Data.Fintype.Pigeonhole

/-!
# C106, C107: `AsString` and `ToInt64`
-/

namespace Verif
open Spec

/-! ## Reading the text of a string back -/

/-- Two digits of an escape. -/
def hexVal (b : UInt8) : Nat := if b < 58 then b.toNat - 48 else b.toNat - 87

/-- The byte a short escape stands for. -/
def shortVal (b : UInt8) : Option UInt8 :=
  if b = 34 ∨ b = 92 then some b
  else if b = 98 then some 8
  else if b = 102 then some 12
  else if b = 110 then some 10
  else if b = 114 then some 13
  else if b = 116 then some 9
  else none

/-- The bytes a long escape stands for; `none` is a byte that cannot be told. -/
def longVal (n : Nat) : List (Option UInt8) :=
  if n = 0xFFFD then [none]
  else if n < 0x80 then [some (UInt8.ofNat n)]
  else [some (UInt8.ofNat (0xE0 + n / 4096)), some (UInt8.ofNat (0x80 + n / 64 % 64)), some (UInt8.ofNat (0x80 + n % 64))]

/-- Reads one character. -/
def read1 : Str → Option (List (Option UInt8) × Str)
  | [] => none
  | b :: s =>
    if b = 92 then
      match s with
      | [] => none
      | c :: r =>
        if c = 117 then
          match r with
          | w :: x :: y :: z :: r => some (longVal (((hexVal w * 16 + hexVal x) * 16 + hexVal y) * 16 + hexVal z), r)
          | _ => none
        else (shortVal c).map fun v => ([some v], r)
    else some ([some b], s)

/-- Reads up to the closing quote. -/
inductive Reads : Str → List (Option UInt8) → Str → Prop
  | stop (r : Str) : Reads (34 :: r) [] r
  | step {s r r' : Str} {u t : List (Option UInt8)} (h : s.head? ≠ some 34) (h1 : read1 s = some (u, r)) (h2 : Reads r t r') :
      Reads s (u ++ t) r'

theorem Reads.unique {s : Str} {t t' : List (Option UInt8)} {r r' : Str} (h : Reads s t r) (h' : Reads s t' r') : t = t' ∧ r = r' := by
  induction h generalizing t' r' with
  | stop r =>
    cases h' with
    | stop => exact ⟨rfl, rfl⟩
    | step h => exact absurd rfl h
  | step h h1 h2 ih =>
    cases h' with
    | stop => exact absurd rfl h
    | step h' h1' h2' =>
      rw [h1] at h1'; cases h1'
      obtain ⟨rfl, rfl⟩ := ih h2'
      exact ⟨rfl, rfl⟩

/-! ## What the text of a string tells -/

/-- The bytes of a string as far as its text tells them: those that do not belong to a UTF-8 sequence are lost. -/
def tells : Nat → Str → List (Option UInt8)
  | _, [] => []
  | k + 1, b :: s => some b :: tells k s
  | 0, b :: s =>
    if b < 0x80 then some b :: tells 0 s
    else
      match runeLen b s with
      | none => none :: tells 0 s
      | some n => some b :: tells n s

/-- The number of bytes after the first one. -/
def headLen (b : UInt8) : Nat := if b ≤ 0xDF then 1 else if b ≤ 0xEF then 2 else 3

theorem runeLen_some {b : UInt8} {s : Str} {n : Nat} (h : runeLen b s = some n) :
    n ≤ s.length ∧ (∀ x ∈ s.take n, 0x80 ≤ x) ∧ n = headLen b := by
  unfold runeLen at h
  split at h
  · rename_i hb
    split at h
    · obtain ⟨hc, h⟩ := Option.ite_none_right_eq_some.1 h
      cases h
      simp only [contByte, Bool.and_eq_true, decide_eq_true_eq] at hc
      refine ⟨by simp, by simpa using hc.1, ?_⟩
      rw [headLen, if_pos hb.2]
    · cases h
  · split at h
    · rename_i hb
      split at h
      · obtain ⟨hc, h⟩ := Option.ite_none_right_eq_some.1 h
        cases h
        simp only [contByte, Bool.and_eq_true, decide_eq_true_eq] at hc
        refine ⟨by simp, ?_, ?_⟩
        · simp only [List.take_succ_cons, List.take_zero, List.mem_cons, List.not_mem_nil, or_false, forall_eq_or_imp, forall_eq]
          refine ⟨?_, hc.2.2.1⟩
          have := hc.1
          split at this
          · exact UInt8.le_trans (by decide) this
          · exact this
        · rw [headLen, if_neg, if_pos hb.2]
          have := UInt8.le_iff_toNat_le.1 hb.1
          rw [UInt8.le_iff_toNat_le]
          simp only [show UInt8.toNat 0xE0 = 0xE0 from rfl, show UInt8.toNat 0xDF = 0xDF from rfl] at *
          omega
      · cases h
    · split at h
      · rename_i hb
        split at h
        · obtain ⟨hc, h⟩ := Option.ite_none_right_eq_some.1 h
          cases h
          simp only [contByte, Bool.and_eq_true, decide_eq_true_eq] at hc
          refine ⟨by simp, ?_, ?_⟩
          · simp only [List.take_succ_cons, List.take_zero, List.mem_cons, List.not_mem_nil, or_false, forall_eq_or_imp, forall_eq]
            refine ⟨?_, hc.2.2.1.1, hc.2.2.2.1⟩
            have := hc.1
            split at this
            · exact UInt8.le_trans (by decide) this
            · exact this
          · rw [headLen, if_neg, if_neg]
            all_goals
              have := UInt8.le_iff_toNat_le.1 hb.1
              rw [UInt8.le_iff_toNat_le]
              simp only [show UInt8.toNat 0xF0 = 0xF0 from rfl, show UInt8.toNat 0xDF = 0xDF from rfl,
                show UInt8.toNat 0xEF = 0xEF from rfl] at *
              omega
        · cases h
      · cases h

theorem jsonLoop_zero (e : Bool) (s : Str) : jsonLoop e 0 s = jsonLoop true 0 s := by
  cases s <;> cases e <;> simp [jsonLoop]

theorem jsonLoop_true {n : Nat} {s : Str} (h : n ≤ s.length) : jsonLoop true n s = s.take n ++ jsonLoop true 0 (s.drop n) := by
  induction n generalizing s with
  | zero => simp
  | succ n ih =>
    cases s with
    | nil => simp at h
    | cons b s => simp [jsonLoop, ih (by simpa using h)]

theorem jsonLoop_false {n : Nat} {s : Str} (h : n ≤ s.length) : jsonLoop false n s = jsonLoop true 0 (s.drop n) := by
  induction n generalizing s with
  | zero => simpa using jsonLoop_zero false s
  | succ n ih =>
    cases s with
    | nil => simp at h
    | cons b s => simp [jsonLoop, ih (by simpa using h)]

theorem tells_skip {n : Nat} {s : Str} (h : n ≤ s.length) : tells n s = (s.take n).map some ++ tells 0 (s.drop n) := by
  induction n generalizing s with
  | zero => simp
  | succ n ih =>
    cases s with
    | nil => simp at h
    | cons b s => simp [tells, ih (by simpa using h)]

/-- An escaped byte is read back. -/
theorem read_jsonByte {b : UInt8} (hb : b < 0x80) (r : Str) : (jsonByte b ++ r).head? ≠ some 34 ∧ read1 (jsonByte b ++ r) = some ([some b], r) := by
  unfold jsonByte
  have e : str "\\u00" = [92, 117, 48, 48] := by decide +kernel
  have e1 : str "\\b" = [92, 98] := by decide +kernel
  have e2 : str "\\f" = [92, 102] := by decide +kernel
  have e3 : str "\\n" = [92, 110] := by decide +kernel
  have e4 : str "\\r" = [92, 114] := by decide +kernel
  have e5 : str "\\t" = [92, 116] := by decide +kernel
  rw [e, e1, e2, e3, e4, e5]
  split
  · rename_i h
    rcases h with rfl | rfl <;> simp [read1, shortVal]
  · rename_i h0
    split
    · subst b; simp [read1, shortVal]
    · split
      · subst b; simp [read1, shortVal]
      · split
        · subst b; simp [read1, shortVal]
        · split
          · subst b; simp [read1, shortVal]
          · split
            · subst b; simp [read1, shortVal]
            · split
              · have key : ∀ n < 128, longVal (((hexVal 48 * 16 + hexVal 48) * 16 + hexVal (hexDigit (n / 16))) * 16 +
                    hexVal (hexDigit (n % 16))) = [some (UInt8.ofNat n)] := by decide +kernel
                have hn : b.toNat < 128 := UInt8.lt_iff_toNat_lt.1 hb
                refine ⟨by simp, ?_⟩
                simp only [List.cons_append, List.nil_append, read1, if_true]
                rw [key b.toNat hn, UInt8.ofNat_toNat]
              · rw [not_or] at h0
                refine ⟨by simp [h0.1], ?_⟩
                simp [read1, h0.2]

theorem reads_jsonByte {b : UInt8} (hb : b < 0x80) {r r' : Str} {t : List (Option UInt8)} (h : Reads r t r') :
    Reads (jsonByte b ++ r) (some b :: t) r' :=
  .step (u := [some b]) (read_jsonByte hb r).1 (read_jsonByte hb r).2 h

theorem reads_pass {u : Str} (hu : ∀ x ∈ u, 0x80 ≤ x) {r r' : Str} {t : List (Option UInt8)} (h : Reads r t r') :
    Reads (u ++ r) (u.map some ++ t) r' := by
  induction u with
  | nil => exact h
  | cons b u ih =>
    have hb := hu b (by simp)
    have h92 : b ≠ 92 := by rintro rfl; exact absurd hb (by decide)
    have h34 : b ≠ 34 := by rintro rfl; exact absurd hb (by decide)
    exact .step (u := [some b]) (by simpa using h34) (by simp [read1, h92]) (ih fun x hx => hu x (by simp [hx]))

/-- The text of a string is read back, as far as it tells. -/
theorem reads_json (s r : Str) : Reads (jsonLoop true 0 s ++ 34 :: r) (tells 0 s) r := by
  induction hl : s.length using Nat.strongRecOn generalizing s with
  | _ l ih =>
    cases s with
    | nil => exact .stop r
    | cons b s =>
      rw [jsonLoop, tells]
      split
      · rename_i hb
        rw [List.append_assoc]
        exact reads_jsonByte hb (ih s.length (by simp at hl; omega) s rfl)
      · rename_i hb
        have hb' : (0x80 : UInt8) ≤ b := UInt8.not_lt.1 hb
        cases hn : runeLen b s with
        | none =>
          simp only
          rw [show str "\\ufffd" = [92, 117, 102, 102, 102, 100] from by decide +kernel]
          have ih' := ih s.length (by simp at hl; omega) s rfl
          exact Reads.step (s := 92 :: 117 :: 102 :: 102 :: 102 :: 100 :: (jsonLoop true 0 s ++ 34 :: r)) (u := [none]) (by simp)
            (by simp only [read1, if_true]; rw [show longVal _ = [none] from by decide +kernel]) ih'
        | some n =>
          simp only
          obtain ⟨h1, h2, -⟩ := runeLen_some hn
          have ih' := ih (s.drop n).length (by simp at hl ⊢; omega) (s.drop n) rfl
          rw [tells_skip h1]
          split
          · rename_i he
            rw [jsonLoop_false h1, show str "\\u2028" = [92, 117, 50, 48, 50, 56] from by decide +kernel]
            have e2 : some b :: ((s.take n).map some ++ tells 0 (s.drop n)) =
                [some 0xE2, some 0x80, some 0xA8] ++ tells 0 (s.drop n) := by
              have := congrArg (List.map some) he
              simp only [List.map_cons, List.map_nil] at this
              rw [← List.cons_append, this]
            rw [e2]
            exact Reads.step (s := 92 :: 117 :: 50 :: 48 :: 50 :: 56 :: (jsonLoop true 0 (s.drop n) ++ 34 :: r))
              (by simp) (by simp only [read1, if_true]; rw [show longVal _ = [some 0xE2, some 0x80, some 0xA8] from by decide +kernel]) ih'
          · split
            · rename_i he
              rw [jsonLoop_false h1, show str "\\u2029" = [92, 117, 50, 48, 50, 57] from by decide +kernel]
              have e2 : some b :: ((s.take n).map some ++ tells 0 (s.drop n)) =
                  [some 0xE2, some 0x80, some 0xA9] ++ tells 0 (s.drop n) := by
                have := congrArg (List.map some) he
                simp only [List.map_cons, List.map_nil] at this
                rw [← List.cons_append, this]
              rw [e2]
              exact Reads.step (s := 92 :: 117 :: 50 :: 48 :: 50 :: 57 :: (jsonLoop true 0 (s.drop n) ++ 34 :: r))
                (by simp) (by simp only [read1, if_true]; rw [show longVal _ = [some 0xE2, some 0x80, some 0xA9] from by decide +kernel]) ih'
            · rw [jsonLoop_true h1]
              have := reads_pass (u := b :: s.take n) (by simpa [hb'] using h2) ih'
              simpa using this

/-- Strings that tell the same have the same text. -/
theorem json_of_tells {s s' : Str} (h : tells 0 s = tells 0 s') : jsonLoop true 0 s = jsonLoop true 0 s' := by
  induction hl : s.length using Nat.strongRecOn generalizing s s' with
  | _ l ih =>
    cases s with
    | nil =>
      cases s' with
      | nil => rfl
      | cons b s' =>
        rw [tells, tells] at h
        split at h
        · cases h
        · split at h <;> cases h
    | cons b s =>
      cases s' with
      | nil =>
        rw [tells, tells] at h
        split at h
        · cases h
        · split at h <;> cases h
      | cons b' s' =>
        have hs : s.length < l := by simp at hl; omega
        rw [tells, tells] at h
        rw [jsonLoop, jsonLoop]
        by_cases hb : b < 0x80
        · by_cases hb' : b' < 0x80
          · simp only [hb, hb', if_true, List.cons.injEq, Option.some.injEq] at h ⊢
            obtain ⟨rfl, h⟩ := h
            rw [ih _ hs h rfl]
          · simp only [hb, hb', if_true, if_false] at h
            split at h
            · cases h
            · simp only [List.cons.injEq, Option.some.injEq] at h
              exact absurd (h.1 ▸ hb) hb'
        · by_cases hb' : b' < 0x80
          · simp only [hb, hb', if_true, if_false] at h
            split at h
            · cases h
            · simp only [List.cons.injEq, Option.some.injEq] at h
              exact absurd (h.1 ▸ hb') hb
          · simp only [hb, hb', if_false] at h ⊢
            cases hr : runeLen b s with
            | none =>
              cases hr' : runeLen b' s' with
              | none =>
                simp only [hr, hr', List.cons.injEq, true_and] at h ⊢
                rw [ih _ hs h rfl]
              | some n => simp [hr, hr'] at h
            | some n =>
              cases hr' : runeLen b' s' with
              | none => simp [hr, hr'] at h
              | some n' =>
                obtain ⟨h1, -, h3⟩ := runeLen_some hr
                obtain ⟨h1', -, h3'⟩ := runeLen_some hr'
                simp only [hr, hr', List.cons.injEq, Option.some.injEq] at h ⊢
                obtain ⟨rfl, h⟩ := h
                obtain rfl : n = n' := h3.trans h3'.symm
                rw [tells_skip h1, tells_skip h1'] at h
                obtain ⟨e1, e2⟩ := List.append_inj h (by simp [h1, h1'])
                have e1 : s.take n = s'.take n := (List.map_inj_right (fun _ _ h => Option.some.inj h)).1 e1
                rw [jsonLoop_false h1, jsonLoop_false h1', jsonLoop_true h1, jsonLoop_true h1', e1,
                  ih (s.drop n).length (by simp; omega) e2 rfl]

/-! ## UTF-8 -/

/-- The text of a string that is UTF-8 tells all of it. -/
theorem tells_char (c : Char) (r : Str) : tells 0 (String.utf8EncodeChar c ++ r) = (String.utf8EncodeChar c).map some ++ tells 0 r := by
  have hv : c.val.toNat < 0xD800 ∨ 0xDFFF < c.val.toNat ∧ c.val.toNat < 0x110000 := c.valid
  unfold String.utf8EncodeChar
  simp only
  generalize c.val.toNat = v at hv
  split
  · rw [List.singleton_append, tells, if_pos]
    · rfl
    · rw [UInt8.lt_iff_toNat_lt, UInt8.toNat_ofNat']
      show v % 256 < 128
      omega
  · have low : ∀ n, 128 ≤ n → n < 256 → ¬ UInt8.ofNat n < 0x80 := by
      intro n h1 h2
      rw [UInt8.lt_iff_toNat_lt, UInt8.toNat_ofNat']
      show ¬ n % 256 < 128
      omega
    have cont : ∀ n, 128 ≤ n → n < 192 → contByte (UInt8.ofNat n) = true := by
      intro n h1 h2
      simp only [contByte, Bool.and_eq_true, decide_eq_true_eq, UInt8.le_iff_toNat_le, UInt8.toNat_ofNat']
      show 128 ≤ n % 256 ∧ n % 256 ≤ 191
      omega
    have le : ∀ (n : Nat) (b : UInt8), n < 256 → (UInt8.ofNat n ≤ b ↔ n ≤ b.toNat) := by
      intro n b h
      rw [UInt8.le_iff_toNat_le, UInt8.toNat_ofNat', Nat.mod_eq_of_lt h]
    have ge : ∀ (n : Nat) (b : UInt8), n < 256 → (b ≤ UInt8.ofNat n ↔ b.toNat ≤ n) := by
      intro n b h
      rw [UInt8.le_iff_toNat_le, UInt8.toNat_ofNat', Nat.mod_eq_of_lt h]
    have eq : ∀ (n : Nat) (b : UInt8), n < 256 → (UInt8.ofNat n = b ↔ n = b.toNat) := by
      intro n b h
      rw [← UInt8.toNat_inj, UInt8.toNat_ofNat', Nat.mod_eq_of_lt h]
    split
    · simp only [List.cons_append, List.nil_append]
      rw [tells, if_neg (low _ (by omega) (by omega)), runeLen, if_pos]
      · rw [if_pos (cont _ (by omega) (by omega))]
        simp [tells]
      · rw [le _ _ (by omega), ge _ _ (by omega)]
        simp only [UInt8.reduceToNat]
        omega
    · split
      · simp only [List.cons_append, List.nil_append]
        rw [tells, if_neg (low _ (by omega) (by omega)), runeLen, if_neg, if_pos]
        · simp only
          rw [if_pos]
          · simp [tells]
          · refine ⟨?_, ?_, cont _ (by omega) (by omega)⟩
            · split
              · rename_i h
                rw [eq _ _ (by omega)] at h
                rw [ge _ _ (by omega)]; simp only [UInt8.reduceToNat] at h ⊢; omega
              · rw [ge _ _ (by omega)]; simp only [UInt8.reduceToNat]; omega
            · split
              · rename_i h
                rw [eq _ _ (by omega)] at h
                rw [le _ _ (by omega)]; simp only [UInt8.reduceToNat] at h ⊢; omega
              · rw [le _ _ (by omega)]; simp only [UInt8.reduceToNat]; omega
        · rw [le _ _ (by omega), ge _ _ (by omega)]
          simp only [UInt8.reduceToNat]
          omega
        · rw [le _ _ (by omega), ge _ _ (by omega)]
          simp only [UInt8.reduceToNat]
          omega
      · simp only [List.cons_append, List.nil_append]
        rw [tells, if_neg (low _ (by omega) (by omega)), runeLen, if_neg, if_neg, if_pos]
        · simp only
          rw [if_pos]
          · simp [tells]
          · refine ⟨?_, ?_, cont _ (by omega) (by omega), cont _ (by omega) (by omega)⟩
            · split
              · rename_i h
                rw [eq _ _ (by omega)] at h
                rw [ge _ _ (by omega)]; simp only [UInt8.reduceToNat] at h ⊢; omega
              · rw [ge _ _ (by omega)]; simp only [UInt8.reduceToNat]; omega
            · split
              · rename_i h
                rw [eq _ _ (by omega)] at h
                rw [le _ _ (by omega)]; simp only [UInt8.reduceToNat] at h ⊢; omega
              · rw [le _ _ (by omega)]; simp only [UInt8.reduceToNat]; omega
        · rw [le _ _ (by omega), ge _ _ (by omega)]
          simp only [UInt8.reduceToNat]
          omega
        · rw [le _ _ (by omega), ge _ _ (by omega)]
          simp only [UInt8.reduceToNat]
          omega
        · rw [le _ _ (by omega), ge _ _ (by omega)]
          simp only [UInt8.reduceToNat]
          omega

theorem tells_str (t : String) : tells 0 (str t) = (str t).map some := by
  have e : str t = t.toList.flatMap String.utf8EncodeChar := by rw [← str_ofList, String.ofList_toList]
  rw [e]
  induction t.toList with
  | nil => rfl
  | cons c cs ih => rw [List.flatMap_cons, tells_char, List.map_append, ih]

/-! ## Values and rows -/

/-- A value as its text tells it. -/
def toldVal : Val → Val ⊕ List (Option UInt8)
  | .str s => .inr (tells 0 s)
  | v => .inl v

/-- The six values of a row as its text tells them. -/
def toldRow (d : Data) : List (Val ⊕ List (Option UInt8)) :=
  [toldVal d.tenant, toldVal d.namespace_, toldVal d.scope, toldVal d.principal, toldVal d.role, toldVal d.manage]

theorem jsonStr_eq (s : Str) : jsonStr s = 34 :: (jsonLoop true 0 s ++ [34]) := by
  rw [jsonStr, show str "\"" = [34] from by decide +kernel]; simp

theorem str_cancel {s s' r r' : Str} (h : jsonStr s ++ r = jsonStr s' ++ r') : tells 0 s = tells 0 s' ∧ r = r' := by
  simp only [jsonStr_eq, List.cons_append, List.append_assoc, List.nil_append, List.cons.injEq, true_and] at h
  exact (h ▸ reads_json s r).unique (reads_json s' r')

theorem intText (n : Int) : ∃ c cs, str (toString n) = c :: cs ∧ (c = 45 ∨ 48 ≤ c ∧ c ≤ 57) := by
  cases n with
  | ofNat n =>
    obtain ⟨c, cs, h, -, -⟩ := natText n
    exact ⟨c, cs, h, .inr (natText_digits n c (by rw [show toString n = n.repr from rfl, h]; simp))⟩
  | negSucc n =>
    refine ⟨45, str (n + 1).repr, ?_, .inl rfl⟩
    rw [show toString (Int.negSucc n) = "-" ++ (n + 1).repr from rfl, str_append, show str "-" = [45] from by decide +kernel]
    rfl

theorem int_cancel {m n : Int} {x y : Str} {c d : UInt8} (hc : NotDigit c) (hd : NotDigit d)
    (h : str (toString m) ++ c :: x = str (toString n) ++ d :: y) : m = n ∧ c :: x = d :: y := by
  have neg : ∀ n : Nat, str (toString (Int.negSucc n)) = 45 :: str (toString (n + 1)) := by
    intro n
    rw [show toString (Int.negSucc n) = "-" ++ toString (n + 1) from rfl, str_append, show str "-" = [45] from by decide +kernel]
    rfl
  have fin : m = n → m = n ∧ c :: x = d :: y := by
    rintro rfl; exact ⟨rfl, List.append_cancel_left h⟩
  cases m with
  | ofNat m =>
    cases n with
    | ofNat n => exact fin (congrArg _ (nat_cancel hc hd h).1)
    | negSucc n =>
      obtain ⟨e, es, he, hne, -⟩ := natText m
      rw [neg, show str (toString (Int.ofNat m)) = e :: es from he] at h
      exact absurd (List.cons.inj h).1 hne
  | negSucc m =>
    cases n with
    | ofNat n =>
      obtain ⟨e, es, he, hne, -⟩ := natText n
      rw [neg, show str (toString (Int.ofNat n)) = e :: es from he] at h
      exact absurd (List.cons.inj h).1.symm hne
    | negSucc n =>
      rw [neg, neg] at h
      have := (nat_cancel hc hd (List.cons.inj h).2).1
      exact fin (by have : m = n := by omega
                    rw [this])

/-- The first byte of a text tells what kind of value it is. -/
def firstOf : Val → UInt8 → Prop
  | .nil, c => c = 110
  | .str _, c => c = 34
  | .bool true, c => c = 116
  | .bool false, c => c = 102
  | .int _, c => c = 45 ∨ 48 ≤ c ∧ c ≤ 57

theorem jsonVal_first (v : Val) : ∃ c cs, jsonVal v = c :: cs ∧ firstOf v c := by
  cases v with
  | nil => exact ⟨110, [117, 108, 108], by decide +kernel, rfl⟩
  | str s => exact ⟨34, _, jsonStr_eq s, rfl⟩
  | bool b =>
    cases b
    · exact ⟨102, [97, 108, 115, 101], by decide +kernel, rfl⟩
    · exact ⟨116, [114, 117, 101], by decide +kernel, rfl⟩
  | int n => exact intText n

theorem val_cancel {v v' : Val} {x y : Str} {c d : UInt8} (hc : NotDigit c) (hd : NotDigit d)
    (h : jsonVal v ++ c :: x = jsonVal v' ++ d :: y) : toldVal v = toldVal v' ∧ c :: x = d :: y := by
  obtain ⟨e, es, he, hf⟩ := jsonVal_first v
  obtain ⟨e', es', he', hf'⟩ := jsonVal_first v'
  have hee : e = e' := by rw [he, he'] at h; exact (List.cons.inj h).1
  subst hee
  have fin : v = v' → toldVal v = toldVal v' ∧ c :: x = d :: y := by
    rintro rfl; exact ⟨rfl, List.append_cancel_left h⟩
  have nd : ¬ (e = 45 ∨ 48 ≤ e ∧ e ≤ 57) ∨ ∃ n, v = .int n := by
    cases v with
    | int n => exact .inr ⟨n, rfl⟩
    | bool b => cases b <;> (left; cases hf; decide)
    | _ => left; cases hf; decide
  rcases nd with nd | ⟨n, rfl⟩
  · cases v with
    | nil =>
      cases v' with
      | nil => exact fin rfl
      | bool b => cases b <;> (cases hf; cases hf')
      | int n => exact absurd hf' nd
      | str s => cases hf; cases hf'
    | str s =>
      cases v' with
      | nil => cases hf; cases hf'
      | bool b => cases b <;> (cases hf; cases hf')
      | int n => exact absurd hf' nd
      | str s' =>
        obtain ⟨h1, h2⟩ := str_cancel (s := s) (s' := s') h
        exact ⟨congrArg Sum.inr h1, h2⟩
    | bool b =>
      cases v' with
      | nil => cases b <;> (cases hf; cases hf')
      | bool b' => cases b <;> cases b' <;> first | exact fin rfl | (cases hf; cases hf')
      | int n => exact absurd hf' nd
      | str s => cases b <;> (cases hf; cases hf')
    | int n => exact absurd hf nd
  · cases v' with
    | int n' =>
      obtain ⟨h1, h2⟩ := int_cancel hc hd (m := n) (n := n') h
      exact ⟨by rw [h1], h2⟩
    | bool b => cases b <;> (cases hf'; exact absurd hf (by simp only [firstOf]; decide))
    | _ => cases hf'; exact absurd hf (by simp only [firstOf]; decide)

theorem jsonRow_eq (d : Data) (r : Str) : jsonRow d ++ r =
    str "{\"Tenant\":" ++ (jsonVal d.tenant ++ 44 :: (str "\"Namespace\":" ++ (jsonVal d.namespace_ ++ 44 ::
    (str "\"Scope\":" ++ (jsonVal d.scope ++ 44 :: (str "\"Principal\":" ++ (jsonVal d.principal ++ 44 ::
    (str "\"Role\":" ++ (jsonVal d.role ++ 44 :: (str "\"ManageDescendants\":" ++ (jsonVal d.manage ++ 125 :: r))))))))))) := by
  rw [jsonRow, show str ",\"Namespace\":" = 44 :: str "\"Namespace\":" from by decide +kernel,
    show str ",\"Scope\":" = 44 :: str "\"Scope\":" from by decide +kernel,
    show str ",\"Principal\":" = 44 :: str "\"Principal\":" from by decide +kernel,
    show str ",\"Role\":" = 44 :: str "\"Role\":" from by decide +kernel,
    show str ",\"ManageDescendants\":" = 44 :: str "\"ManageDescendants\":" from by decide +kernel,
    show str "}" = [125] from by decide +kernel]
  simp only [List.append_assoc, List.cons_append, List.nil_append]

theorem row_cancel {d d' : Data} {r r' : Str} (h : jsonRow d ++ r = jsonRow d' ++ r') : toldRow d = toldRow d' ∧ r = r' := by
  have n1 : NotDigit 44 := by unfold NotDigit; decide
  have n2 : NotDigit 125 := by unfold NotDigit; decide
  rw [jsonRow_eq, jsonRow_eq] at h
  obtain ⟨h1, h⟩ := val_cancel n1 n1 (List.append_cancel_left h)
  obtain ⟨h2, h⟩ := val_cancel n1 n1 (List.append_cancel_left (List.cons.inj h).2)
  obtain ⟨h3, h⟩ := val_cancel n1 n1 (List.append_cancel_left (List.cons.inj h).2)
  obtain ⟨h4, h⟩ := val_cancel n1 n1 (List.append_cancel_left (List.cons.inj h).2)
  obtain ⟨h5, h⟩ := val_cancel n1 n1 (List.append_cancel_left (List.cons.inj h).2)
  obtain ⟨h6, h⟩ := val_cancel n2 n2 (List.append_cancel_left (List.cons.inj h).2)
  exact ⟨by rw [toldRow, toldRow, h1, h2, h3, h4, h5, h6], (List.cons.inj h).2⟩

theorem jsonVal_of_told {v v' : Val} (h : toldVal v = toldVal v') : jsonVal v = jsonVal v' := by
  cases v with
  | str s =>
    cases v' with
    | str s' => rw [jsonVal, jsonVal, jsonStr_eq, jsonStr_eq, json_of_tells (Sum.inr.inj h)]
    | _ => cases h
  | _ =>
    cases v' with
    | str s' => cases h
    | _ => cases h <;> rfl

theorem jsonRow_of_told {d d' : Data} (h : toldRow d = toldRow d') : jsonRow d = jsonRow d' := by
  simp only [toldRow, List.cons.injEq, and_true] at h
  obtain ⟨h1, h2, h3, h4, h5, h6⟩ := h
  rw [jsonRow, jsonRow, jsonVal_of_told h1, jsonVal_of_told h2, jsonVal_of_told h3, jsonVal_of_told h4, jsonVal_of_told h5,
    jsonVal_of_told h6]

/-- The rows after the first one. -/
def jsonMore (ds : List Data) : Str := ds.flatMap fun e => 44 :: jsonRow e

theorem jsonRows_eq (d : Data) (ds : List Data) : jsonRows (d :: ds) = 91 :: (jsonRow d ++ (jsonMore ds ++ [93])) := by
  have key : ∀ (ds : List Data) (x : Str), ds.foldl (fun acc e => acc ++ str "," ++ jsonRow e) x = x ++ jsonMore ds := by
    intro ds
    induction ds with
    | nil => intro x; simp [jsonMore]
    | cons e ds ih =>
      intro x
      rw [List.foldl_cons, ih, show str "," = [44] from by decide +kernel]
      simp [jsonMore]
  rw [jsonRows, key, show str "[" = [91] from by decide +kernel, show str "]" = [93] from by decide +kernel]
  simp

theorem more_cancel {ds ds' : List Data} (h : jsonMore ds ++ [93] = jsonMore ds' ++ [93]) : ds.map toldRow = ds'.map toldRow := by
  induction ds generalizing ds' with
  | nil =>
    cases ds' with
    | nil => rfl
    | cons e ds' => simp [jsonMore] at h
  | cons d ds ih =>
    cases ds' with
    | nil => simp [jsonMore] at h
    | cons d' ds' =>
      have e : ∀ d ds, jsonMore (d :: ds) ++ [93] = 44 :: (jsonRow d ++ (jsonMore ds ++ [93])) := by intro d ds; simp [jsonMore]
      rw [e, e] at h
      obtain ⟨h1, h2⟩ := row_cancel (List.cons.inj h).2
      rw [List.map_cons, List.map_cons, h1, ih h2]

/-! ## C106 -/

/-- C106. Two lists of rows have the same text exactly if the rows are the same in the same order, up to bytes of strings that are not
UTF-8: nothing else is lost, whatever quotes, commas, braces or control characters the ids contain. -/
theorem C106_exact (l l' : List Data) : jsonRows l = jsonRows l' ↔ l.map toldRow = l'.map toldRow := by
  constructor
  · intro h
    cases l with
    | nil =>
      cases l' with
      | nil => rfl
      | cons d ds =>
        rw [jsonRows_eq, jsonRows, show str "[]" = [91, 93] from by decide +kernel, jsonRow_eq,
          show str "{\"Tenant\":" = 123 :: str "\"Tenant\":" from by decide +kernel] at h
        simp at h
    | cons d ds =>
      cases l' with
      | nil =>
        rw [jsonRows_eq, jsonRows, show str "[]" = [91, 93] from by decide +kernel, jsonRow_eq,
          show str "{\"Tenant\":" = 123 :: str "\"Tenant\":" from by decide +kernel] at h
        simp at h
      | cons d' ds' =>
        rw [jsonRows_eq, jsonRows_eq] at h
        obtain ⟨h1, h2⟩ := row_cancel (List.cons.inj h).2
        rw [List.map_cons, List.map_cons, h1, more_cancel h2]
  · intro h
    have e : l.map jsonRow = l'.map jsonRow := by
      induction l generalizing l' with
      | nil => cases l' with
        | nil => rfl
        | cons => cases h
      | cons d l ih =>
        cases l' with
        | nil => cases h
        | cons d' l' =>
          obtain ⟨h1, h2⟩ := List.cons.inj h
          rw [List.map_cons, List.map_cons, jsonRow_of_told h1, ih _ h2]
    cases l with
    | nil => cases l' with
      | nil => rfl
      | cons => cases h
    | cons d l =>
      cases l' with
      | nil => cases h
      | cons d' l' =>
        obtain ⟨h1, h2⟩ := List.cons.inj e
        have m : ∀ ds, jsonMore ds = (ds.map jsonRow).flatMap fun e => 44 :: e := fun ds => by simp [jsonMore, List.flatMap_map]
        rw [jsonRows_eq, jsonRows_eq, m, m, h1, h2]

/-- The ids of a row are UTF-8 (values that are no strings are not concerned). -/
def Utf8Row (d : Data) : Prop :=
  ∀ v ∈ [d.tenant, d.namespace_, d.scope, d.principal, d.role, d.manage], ∀ s, v = .str s → ∃ t : String, s = str t

theorem told_inj {v v' : Val} (hv : ∀ s, v = .str s → ∃ t : String, s = str t) (hv' : ∀ s, v' = .str s → ∃ t : String, s = str t)
    (h : toldVal v = toldVal v') : v = v' := by
  cases v with
  | str s =>
    cases v' with
    | str s' =>
      obtain ⟨t, rfl⟩ := hv s rfl
      obtain ⟨t', rfl⟩ := hv' s' rfl
      have := Sum.inr.inj h
      rw [tells_str, tells_str] at this
      rw [(List.map_inj_right (fun _ _ h => Option.some.inj h)).1 this]
    | _ => cases h
  | _ =>
    cases v' with
    | str s' => cases h
    | _ => cases h <;> rfl

theorem toldRow_inj {d d' : Data} (hd : Utf8Row d) (hd' : Utf8Row d') (h : toldRow d = toldRow d') : d = d' := by
  simp only [toldRow, List.cons.injEq, and_true] at h
  obtain ⟨h1, h2, h3, h4, h5, h6⟩ := h
  simp only [Utf8Row, List.mem_cons, List.not_mem_nil, or_false, forall_eq_or_imp, forall_eq] at hd hd'
  have e1 := told_inj hd.1 hd'.1 h1
  have e2 := told_inj hd.2.1 hd'.2.1 h2
  have e3 := told_inj hd.2.2.1 hd'.2.2.1 h3
  have e4 := told_inj hd.2.2.2.1 hd'.2.2.2.1 h4
  have e5 := told_inj hd.2.2.2.2.1 hd'.2.2.2.2.1 h5
  have e6 := told_inj hd.2.2.2.2.2 hd'.2.2.2.2.2 h6
  cases d; cases d'
  simp only at e1 e2 e3 e4 e5 e6
  rw [e1, e2, e3, e4, e5, e6]

/-- C106. `AsString` is the text of the stored rows, each once, in some order. -/
theorem C106_text {w : Mgr} (inv : w.Inv) (o : Ord) (site : List Val) :
    ∃ l, Lists w l (fun _ => True) ∧ w.asString o site = jsonRows l := by
  refine ⟨w.trie.data o site, ⟨?_, fun d => ?_⟩, rfl⟩
  · rw [Trie.data, (inv.trie.search o site (fun _ => true)).nodup_iff]
    exact (survivors_nodup _).filter _
  · rw [Trie.data, (inv.trie.search o site (fun _ => true)).mem_iff]
    simp [Stored]

/-- C106 as claimed: managers that show the same store the same rows. -/
def C106_full : Prop := ∀ (ops ops' : List MOp) (w w' : Mgr) (o o' : Ord) (site site' : List Val),
  MOp.run {} ops = .ok w → MOp.run {} ops' = .ok w' → w.asString o site = w'.asString o' site' → ∀ d, Stored w d ↔ Stored w' d

/-- A tenant with the given id, and one principal with a role in it. -/
def jsonWorld (id : Str) : List MOp :=
  [.newTenant id, .addTenant 0, .addPrincipal (str "p") 0, .role (.newRole (str "r")), .addRole 0,
    .tAddPrincipalWithRole 0 (str "p") (str "r") true]

/-- The row stored for it. -/
def jsonWorldRow (id : Str) : Data := ⟨.str id, .nil, .nil, .str (str "p"), .str (str "r"), .bool true⟩

/-- What a manager shows for an id that is not UTF-8. -/
def jsonWorldText : Str :=
  str "[{\"Tenant\":\"\\ufffd\",\"Namespace\":null,\"Scope\":null,\"Principal\":\"p\",\"Role\":\"r\",\"ManageDescendants\":true}]"

/-- C106 is violated: tenant ids that are not UTF-8. -/
theorem C106_counterexample : ∃ w w', MOp.run {} (jsonWorld [0xff]) = .ok w ∧ MOp.run {} (jsonWorld [0xfe]) = .ok w' ∧
    w.asString .fwd [] = w'.asString .fwd [] ∧ ¬ ∀ d, Stored w d ↔ Stored w' d := by
  obtain ⟨w, h1, h2, h3⟩ := Out.chk_ok (x := MOp.run {} (jsonWorld [0xff]))
    (P := fun w => w.asString .fwd [] = jsonWorldText ∧ jsonWorldRow [0xff] ∈ survivors (rowKey dataKeys) w.log) (by decide +kernel)
  obtain ⟨w', h1', h2', h3'⟩ := Out.chk_ok (x := MOp.run {} (jsonWorld [0xfe]))
    (P := fun w => w.asString .fwd [] = jsonWorldText ∧ jsonWorldRow [0xff] ∉ survivors (rowKey dataKeys) w.log) (by decide +kernel)
  exact ⟨w, w', h1, h1', h2.trans h2'.symm, fun hn => h3' ((hn _).1 h3)⟩

theorem C106_full_false : ¬ C106_full := by
  obtain ⟨w, w', h, h', he, hn⟩ := C106_counterexample
  exact fun hf => hn (hf _ _ w w' _ _ _ _ h h' he)

/-- C106, partial: managers whose ids are UTF-8 and that show the same store the same rows.  Missing: other ids (false). -/
theorem C106_state_partial {ops ops' : List MOp} {w w' : Mgr} (h : MOp.run {} ops = .ok w) (h' : MOp.run {} ops' = .ok w')
    (hu : ∀ d, Stored w d → Utf8Row d) (hu' : ∀ d, Stored w' d → Utf8Row d) {o o' : Ord} {site site' : List Val}
    (he : w.asString o site = w'.asString o' site') (d : Data) : Stored w d ↔ Stored w' d := by
  obtain ⟨l, hl, e⟩ := C106_text (MOp.reachable_inv h) o site
  obtain ⟨l', hl', e'⟩ := C106_text (MOp.reachable_inv h') o' site'
  rw [e, e', C106_exact] at he
  have key : ∀ (l l' : List Data), (∀ d ∈ l, Utf8Row d) → (∀ d ∈ l', Utf8Row d) → l.map toldRow = l'.map toldRow → l = l' := by
    intro l
    induction l with
    | nil => intro l' _ _ h; cases l' with
      | nil => rfl
      | cons => cases h
    | cons d l ih =>
      intro l' h1 h2 h
      cases l' with
      | nil => cases h
      | cons d' l' =>
        obtain ⟨h3, h4⟩ := List.cons.inj h
        rw [toldRow_inj (h1 d (by simp)) (h2 d' (by simp)) h3, ih l' (fun x hx => h1 x (by simp [hx])) (fun x hx => h2 x (by simp [hx])) h4]
  have hll : l = l' := key l l' (fun x hx => hu x ((hl.2 x).1 hx).1) (fun x hx => hu' x ((hl'.2 x).1 hx).1) he
  subst hll
  have m := hl.2 d
  have m' := hl'.2 d
  simp only [and_true] at m m'
  exact m.symm.trans m'

/-- Two tenants whose ids contain quotes, or look like parts of the text, do not show the same; and an id with characters of
several bytes. -/
example : ∃ w, MOp.run {} (jsonWorld (str "a\",\"Namespace\":\"<\u2028é€\n")) = .ok w ∧ (w.asString .rev [] =
    str "[{\"Tenant\":\"a\\\",\\\"Namespace\\\":\\\"\\u003c\\u2028é€\\n\",\"Namespace\":null,\"Scope\":null,\"Principal\":\"p\",\"Role\":\"r\",\"ManageDescendants\":true}]" ∧
    ∀ d ∈ survivors (rowKey dataKeys) w.log, d = jsonWorldRow (str "a\",\"Namespace\":\"<\u2028é€\n")) :=
  Out.chk_ok (by decide +kernel)

/-- The condition of the theorem holds there. -/
example (t : String) : Utf8Row (jsonWorldRow (str t)) := by
  intro v hv s hs
  subst hs
  simp only [jsonWorldRow, List.mem_cons, Val.str.injEq, reduceCtorEq, List.not_mem_nil, or_false, false_or] at hv
  rcases hv with rfl | rfl | rfl
  · exact ⟨t, rfl⟩
  · exact ⟨"p", rfl⟩
  · exact ⟨"r", rfl⟩

/-! ## C107 -/

theorem mul_cancel64 {a b : UInt64} (h : a * 1099511628211 = b * 1099511628211) : a = b := by
  have := congrArg (· * (14886173955864302971 : UInt64)) h
  simp only [UInt64.mul_assoc] at this
  rw [show (1099511628211 * 14886173955864302971 : UInt64) = 1 from by decide +kernel] at this
  simpa using this

theorem xor_cancel64 {a b c : UInt64} (h : a ^^^ c = b ^^^ c) : a = b := by
  have := congrArg (· ^^^ c) h
  simpa [UInt64.xor_assoc] using this

/-- The hash of a string from a given state. -/
def hashFrom (h : UInt64) (s : Str) : UInt64 := s.foldl (fun h b => h * 1099511628211 ^^^ b.toUInt64) h

theorem hashFrom_inj {a b : UInt64} {s : Str} (h : hashFrom a s = hashFrom b s) : a = b := by
  induction s generalizing a b with
  | nil => exact h
  | cons x s ih => exact mul_cancel64 (xor_cancel64 (ih h))

theorem toInt64_append (a s : Str) : toInt64 (a ++ s) = hashFrom (toInt64 a) s := by
  rw [toInt64, List.foldl_append]; rfl

/-- C107. `ToInt64` of two strings with a common end agrees exactly if it agrees on the beginnings. -/
theorem C107_common_end (a b s : Str) : toInt64 (a ++ s) = toInt64 (b ++ s) ↔ toInt64 a = toInt64 b := by
  rw [toInt64_append, toInt64_append]
  exact ⟨hashFrom_inj, fun h => by rw [h]⟩

/-- C107. Strings that differ in one byte only have different hashes. -/
theorem C107_one_byte (a s : Str) {x y : UInt8} (h : x ≠ y) : toInt64 (a ++ x :: s) ≠ toInt64 (a ++ y :: s) := by
  intro he
  rw [List.append_cons a x s, List.append_cons a y s, C107_common_end, toInt64_append, toInt64_append] at he
  have : ∀ c d e : UInt64, c ^^^ d = c ^^^ e → d = e := by
    intro c d e h
    rw [UInt64.xor_comm c d, UInt64.xor_comm c e] at h
    exact xor_cancel64 h
  have := this _ _ _ he
  exact h (UInt8.toNat_inj.1 (by simpa using congrArg UInt64.toNat this))

/-- Small combinations of powers of the factor are no multiples of 2^64. -/
theorem small4 {a b c d K : Int} (ha : -510 ≤ a ∧ a ≤ 510) (hb : -510 ≤ b ∧ b ≤ 510) (hc : -510 ≤ c ∧ c ≤ 510)
    (hd : -510 ≤ d ∧ d ≤ 510)
    (h : ((a * 1099511628211 + b) * 1099511628211 + c) * 1099511628211 + d = 18446744073709551616 * K) :
    a = 0 ∧ b = 0 ∧ c = 0 ∧ d = 0 := by
  obtain ⟨L, hL⟩ : ∃ L, L = 82312875 * a + 189225 * b + 435 * c + d := ⟨_, rfl⟩
  obtain ⟨H, hH⟩ : ∃ H, H = 567675 * a + 870 * b + c := ⟨_, rfl⟩
  obtain ⟨K', hK⟩ : ∃ K', 1099511627776 * H + L = 18446744073709551616 * K' := by
    refine ⟨K - 72057594123452416 * a - 65536 * b, ?_⟩
    subst hL hH
    omega
  have hl : L = 0 := by
    have : L = 1099511627776 * (16777216 * K' - H) := by omega
    omega
  have hh : H = 16777216 * K' := by omega
  have : H = 0 := by omega
  omega

/-- Changing the last byte changes a number by less than 256. -/
theorem xor_near (n m : Nat) (hm : m < 256) : ∃ e : Int, -255 ≤ e ∧ e ≤ 255 ∧ ((n ^^^ m : Nat) : Int) = n + e := by
  have h1 : (n ^^^ m) / 256 = n / 256 := by
    have := @Nat.xor_div_two_pow n m 8
    rw [show 2 ^ 8 = 256 from rfl, Nat.div_eq_of_lt hm, Nat.xor_zero] at this
    exact this
  refine ⟨((n ^^^ m) % 256 : Nat) - (n % 256 : Nat), ?_, ?_, ?_⟩ <;> omega

/-- The states after a byte differ as they did before, times the factor, and a little. -/
theorem hash_diff (h h' : UInt64) (b b' : UInt8) : ∃ e k : Int, -510 ≤ e ∧ e ≤ 510 ∧
    ((hashFrom h [b]).toNat : Int) - (hashFrom h' [b']).toNat =
      ((h.toNat : Int) - h'.toNat) * 1099511628211 + e - 18446744073709551616 * k := by
  have one : ∀ (h : UInt64) (b : UInt8), ∃ e k : Int, -255 ≤ e ∧ e ≤ 255 ∧
      ((hashFrom h [b]).toNat : Int) = (h.toNat : Int) * 1099511628211 + e - 18446744073709551616 * k := by
    intro h b
    obtain ⟨e, h1, h2, h3⟩ := xor_near (h * 1099511628211).toNat b.toNat (UInt8.toNat_lt b)
    refine ⟨e, ((h.toNat * 1099511628211) / 18446744073709551616 : Nat), h1, h2, ?_⟩
    have : hashFrom h [b] = h * 1099511628211 ^^^ b.toUInt64 := rfl
    rw [this, UInt64.toNat_xor, UInt8.toNat_toUInt64, h3, UInt64.toNat_mul]
    have : (1099511628211 : UInt64).toNat = 1099511628211 := rfl
    rw [this]
    omega
  obtain ⟨e, k, h1, h2, h3⟩ := one h b
  obtain ⟨e', k', h1', h2', h3'⟩ := one h' b'
  exact ⟨e - e', k - k', by omega, by omega, by omega⟩

theorem byte_eq {h : UInt64} {b b' : UInt8} (he : hashFrom h [b] = hashFrom h [b']) : b = b' := by
  have he : h * 1099511628211 ^^^ b.toUInt64 = h * 1099511628211 ^^^ b'.toUInt64 := he
  rw [UInt64.xor_comm _ b.toUInt64, UInt64.xor_comm _ b'.toUInt64] at he
  exact UInt8.toNat_inj.1 (by simpa using congrArg UInt64.toNat (xor_cancel64 he))

theorem window4 {h : UInt64} {a b c d a' b' c' d' : UInt8} (he : hashFrom h [a, b, c, d] = hashFrom h [a', b', c', d']) :
    [a, b, c, d] = [a', b', c', d'] := by
  have lt : ∀ (x y : UInt64) (k : Int), ((x.toNat : Int) - y.toNat) = 18446744073709551616 * k → x = y := by
    intro x y k hxy
    have h1 : (x.toNat : Int) < 18446744073709551616 := Int.ofNat_lt.2 (UInt64.toNat_lt x)
    have h2 : (y.toNat : Int) < 18446744073709551616 := Int.ofNat_lt.2 (UInt64.toNat_lt y)
    have h3 := Int.natCast_nonneg x.toNat
    have h4 := Int.natCast_nonneg y.toNat
    have h5 : (x.toNat : Int) = y.toNat := by
      generalize (x.toNat : Int) = p at *
      generalize (y.toNat : Int) = q at *
      omega
    exact UInt64.toNat_inj.1 (Int.ofNat_inj.1 h5)
  obtain ⟨h1, e1⟩ : ∃ x, x = hashFrom h [a] := ⟨_, rfl⟩
  obtain ⟨h1', e1'⟩ : ∃ x, x = hashFrom h [a'] := ⟨_, rfl⟩
  obtain ⟨h2, e2⟩ : ∃ x, x = hashFrom h1 [b] := ⟨_, rfl⟩
  obtain ⟨h2', e2'⟩ : ∃ x, x = hashFrom h1' [b'] := ⟨_, rfl⟩
  obtain ⟨h3, e3⟩ : ∃ x, x = hashFrom h2 [c] := ⟨_, rfl⟩
  obtain ⟨h3', e3'⟩ : ∃ x, x = hashFrom h2' [c'] := ⟨_, rfl⟩
  have he : hashFrom h3 [d] = hashFrom h3' [d'] := by
    have four : ∀ a b c d : UInt8, hashFrom h [a, b, c, d] = hashFrom (hashFrom (hashFrom (hashFrom h [a]) [b]) [c]) [d] := by
      intro a b c d; simp only [hashFrom, List.foldl_cons, List.foldl_nil]
    rw [four, four] at he
    rw [e3, e3', e2, e2', e1, e1']; exact he
  obtain ⟨x1, k1, u1, v1, w1⟩ := hash_diff h h a a'
  obtain ⟨x2, k2, u2, v2, w2⟩ := hash_diff h1 h1' b b'
  obtain ⟨x3, k3, u3, v3, w3⟩ := hash_diff h2 h2' c c'
  obtain ⟨x4, k4, u4, v4, w4⟩ := hash_diff h3 h3' d d'
  rw [← e1, ← e1'] at w1
  rw [← e2, ← e2'] at w2
  rw [← e3, ← e3'] at w3
  rw [he] at w4
  rw [Int.sub_self] at w1 w4
  have l1 := lt h1 h1'
  have l2 := lt h2 h2'
  have l3 := lt h3 h3'
  generalize (h1.toNat : Int) - h1'.toNat = D1 at *
  generalize (h2.toNat : Int) - h2'.toNat = D2 at *
  generalize (h3.toNat : Int) - h3'.toNat = D3 at *
  obtain ⟨z1, z2, z3, z4⟩ := small4 (a := x1) (b := x2) (c := x3) (d := x4)
    (K := ((k1 * 1099511628211 + k2) * 1099511628211 + k3) * 1099511628211 + k4) ⟨u1, v1⟩ ⟨u2, v2⟩ ⟨u3, v3⟩ ⟨u4, v4⟩ (by omega)
  obtain rfl : h1 = h1' := l1 (-k1) (by omega)
  obtain rfl : h2 = h2' := l2 (-k1 * 1099511628211 - k2) (by omega)
  obtain rfl : h3 = h3' := l3 ((-k1 * 1099511628211 - k2) * 1099511628211 - k3) (by omega)
  rw [byte_eq (e1.symm.trans e1'), byte_eq (e2.symm.trans e2'), byte_eq (e3.symm.trans e3'), byte_eq he]

/-- C107. Strings that differ in at most four neighbouring bytes, for example in the order of two of them, have different hashes. -/
theorem C107_four_bytes (a s : Str) {x y : Str} (hl : x.length = y.length) (h4 : x.length ≤ 4) (h : x ≠ y) :
    toInt64 (a ++ x ++ s) ≠ toInt64 (a ++ y ++ s) := by
  intro he
  rw [C107_common_end, toInt64_append, toInt64_append] at he
  obtain ⟨z, hz⟩ : ∃ z : Str, z = List.replicate (4 - x.length) 0 := ⟨_, rfl⟩
  have happ : ∀ (h : UInt64) (x z : Str), hashFrom h (x ++ z) = hashFrom (hashFrom h x) z := fun h x z => List.foldl_append
  have he : hashFrom (toInt64 a) (x ++ z) = hashFrom (toInt64 a) (y ++ z) := by rw [happ, happ, he]
  have l4 : (x ++ z).length = 4 := by simp [hz]; omega
  have l4' : (y ++ z).length = 4 := by simp [hz]; omega
  match hx : x ++ z, l4, hy : y ++ z, l4' with
  | [a1, b1, c1, d1], _, [a2, b2, c2, d2], _ =>
    rw [hx, hy] at he
    exact h (List.append_cancel_right ((hx.trans (window4 he)).trans hy.symm))

example : toInt64 (str "ab") ≠ toInt64 (str "ba") := C107_four_bytes [] [] (x := str "ab") (y := str "ba") rfl (by decide) (by decide)

/-- C107 as claimed: different strings have different hashes. -/
def C107_full : Prop := ∀ a b : Str, toInt64 a = toInt64 b → a = b

/-- C107 is violated, since there are more strings than hashes; already among strings of zero bytes. -/
theorem C107_counterexample : ∃ m n : Nat, m ≠ n ∧ toInt64 (List.replicate m 0) = toInt64 (List.replicate n 0) := by
  obtain ⟨m, n, h1, h2⟩ := Finite.exists_ne_map_eq_of_infinite fun n : Nat => (toInt64 (List.replicate n 0)).toBitVec.toFin
  exact ⟨m, n, h1, UInt64.toBitVec_inj.1 (BitVec.toFin_inj.1 h2)⟩

theorem C107_full_false : ¬ C107_full := by
  obtain ⟨m, n, h1, h2⟩ := C107_counterexample
  exact fun hf => h1 (by simpa using congrArg List.length (hf _ _ h2))

/-- Known values of FNV-1: the empty string and `a`. -/
example : toInt64 [] = 0xcbf29ce484222325 ∧ toInt64 (str "a") = 0xaf63bd4c8601b7be := by decide +kernel

end Verif
