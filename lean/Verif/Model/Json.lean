import Verif.Model.Manager

/-!
# Model of `AsString` (/repo/role_manager.go:145-151) and `ToInt64` (/repo/utils/str.go:27-31)

Of `encoding/json` (Go 1.22, as go.mod asks for) only what a slice of pointers to `Data` with nil, string, bool and integer fields
needs is modelled: such values are marshalled without error.
-/

namespace Verif

/-- A digit of a `\u` escape. -/
def hexDigit (n : Nat) : UInt8 := if n < 10 then UInt8.ofNat (48 + n) else UInt8.ofNat (87 + n)

/-- `encoding/json` writes an ASCII byte of a string: quotes, backslashes, control characters and `&`, `<`, `>` are escaped. -/
def jsonByte (b : UInt8) : Str :=
  if b = 34 ∨ b = 92 then [92, b]
  else if b = 8 then str "\\b"
  else if b = 12 then str "\\f"
  else if b = 10 then str "\\n"
  else if b = 13 then str "\\r"
  else if b = 9 then str "\\t"
  else if b < 32 ∨ b = 38 ∨ b = 60 ∨ b = 62 then str "\\u00" ++ [hexDigit (b.toNat / 16), hexDigit (b.toNat % 16)]
  else [b]

/-- A byte that continues a UTF-8 sequence. -/
def contByte (b : UInt8) : Bool := 0x80 ≤ b && b ≤ 0xBF

/-- `utf8.DecodeRuneInString` on a string that begins with `b`, not ASCII, and continues with `s`: how many of the bytes of `s`
belong to the first character; `none` if the bytes are not UTF-8. -/
def runeLen (b : UInt8) (s : Str) : Option Nat :=
  if 0xC2 ≤ b ∧ b ≤ 0xDF then
    match s with
    | b1 :: _ => if contByte b1 then some 1 else none
    | _ => none
  else if 0xE0 ≤ b ∧ b ≤ 0xEF then
    match s with
    | b1 :: b2 :: _ =>
      if (if b = 0xE0 then 0xA0 else 0x80) ≤ b1 ∧ b1 ≤ (if b = 0xED then 0x9F else 0xBF) ∧ contByte b2 then some 2 else none
    | _ => none
  else if 0xF0 ≤ b ∧ b ≤ 0xF4 then
    match s with
    | b1 :: b2 :: b3 :: _ =>
      if (if b = 0xF0 then 0x90 else 0x80) ≤ b1 ∧ b1 ≤ (if b = 0xF4 then 0x8F else 0xBF) ∧ contByte b2 ∧ contByte b3 then some 3
      else none
    | _ => none
  else none

/-- The loop of `encoding/json` over the bytes of a string. `k` bytes are left of a character that is written as it is, or
dropped because it is written already. Bytes that are not UTF-8 become `�`, U+2028 and U+2029 are escaped. -/
def jsonLoop : Bool → Nat → Str → Str
  | _, _, [] => []
  | true, k + 1, b :: s => b :: jsonLoop true k s
  | false, k + 1, _ :: s => jsonLoop false k s
  | _, 0, b :: s =>
    if b < 0x80 then jsonByte b ++ jsonLoop true 0 s
    else
      match runeLen b s with
      | none => str "\\ufffd" ++ jsonLoop true 0 s
      | some n =>
        if b :: s.take n = [0xE2, 0x80, 0xA8] then str "\\u2028" ++ jsonLoop false n s
        else if b :: s.take n = [0xE2, 0x80, 0xA9] then str "\\u2029" ++ jsonLoop false n s
        else b :: jsonLoop true n s

/-- A string between quotes. -/
def jsonStr (s : Str) : Str := str "\"" ++ jsonLoop true 0 s ++ str "\""

/-- `encoding/json` of an `any`. Other dynamic types than nil, string, bool and integers are not modelled. -/
def jsonVal : Val → Str
  | .nil => str "null"
  | .str s => jsonStr s
  | .bool true => str "true"
  | .bool false => str "false"
  | .int n => str (toString n)

/-- `encoding/json` of a `Data` (filters.go:7-14), which has no JSON names of its own. -/
def jsonRow (d : Data) : Str :=
  str "{\"Tenant\":" ++ jsonVal d.tenant ++ str ",\"Namespace\":" ++ jsonVal d.namespace_ ++ str ",\"Scope\":" ++ jsonVal d.scope ++
    str ",\"Principal\":" ++ jsonVal d.principal ++ str ",\"Role\":" ++ jsonVal d.role ++ str ",\"ManageDescendants\":" ++
    jsonVal d.manage ++ str "}"

/-- `encoding/json` of a slice that is not nil. -/
def jsonRows : List Data → Str
  | [] => str "[]"
  | d :: ds => str "[" ++ ds.foldl (fun acc e => acc ++ str "," ++ jsonRow e) (jsonRow d) ++ str "]"

/-- `AsString` (role_manager.go:145-151): the rows in the order in which the trie lists them (`Data`, trie/trie.go:135-138,
never a nil slice). `FromByte` (utils/str.go:102-106) does not change the bytes. -/
def Mgr.asString (w : Mgr) (o : Ord) (site : List Val) : Str := jsonRows (w.trie.data o site)

/-- `ToInt64` (utils/str.go:27-31): `fnv.New64` is FNV-1 with 64 bits. -/
def toInt64 (s : Str) : UInt64 := s.foldl (fun h b => h * 1099511628211 ^^^ b.toUInt64) 14695981039346656037

end Verif
