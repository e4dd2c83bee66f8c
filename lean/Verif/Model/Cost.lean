import Verif.Model.Role

/-!
# How many calls `Role.Has` makes: /repo/role.go:57-92 (and /repo/v1/role.go:56-91)

The same code as `RHeap.has` with a counter: the result carries the number of calls of `Has`, the
first one and all recursive ones.  That the answers agree is theorem `C122_counted`.  The calls of `GetDescendantRoles`,
`MatchResource` and of the maps are not counted.
-/

namespace Verif

/-- The Go loop `for i, x := range xs { if f(i, x) { return true } }; return false`, adding up counters. -/
def Out.anyC {α : Type} (f : Nat → α → Out (Bool × Nat)) : Nat → List α → Out (Bool × Nat)
  | _, [] => .ok (false, 0)
  | i, x :: xs => (f i x).bind fun bc =>
    if bc.1 then .ok bc else (anyC f (i + 1) xs).map fun r => (r.1, bc.2 + r.2)

namespace RHeap

/-- `Role.Has` (role.go:57-92; v1/role.go:56-91) with the number of calls of `Has`. -/
def hasCount (h : RHeap) (o : Ord) (group name : Str) (allowed : List Str) :
    Nat → List Val → Nat → Out (Bool × Nat)
  | 0, _, _ => .diverge
  | n + 1, site, r =>
    match h.roles[r]? with
    | none => .panic
    | some ro =>
      match ro.perms.get group with                                      -- lines 58-61
      | none => .ok (false, 1)
      | some ga =>
        match h.groups[ga]? with
        | none => .panic
        | some g =>
          if (g.perms.get name).isSome then .ok (true, 1)                -- lines 62-64
          else                                                           -- lines 65-75
            (Out.anyI (fun _ (e : Str × Attr) => matchResource name e.1) 0
              (o.ord (site ++ [.int 0]) _ g.perms)).bind fun matched =>
            if matched then .ok (true, 1)
            else                                                         -- lines 76-91
              (descRoles h o n (site ++ [.int 1]) r).bind fun ds =>
              (Out.anyC (fun i d =>
                match h.roles[d]? with
                | none => .panic
                | some dr =>
                  if 0 < allowed.length then
                    if dr.id ∈ allowed then hasCount h o group name allowed n (site ++ [.int 2, .int i]) d
                    else .ok (false, 0)
                  else hasCount h o group name allowed n (site ++ [.int 2, .int i]) d) 0 ds).map
                fun r => (r.1, r.2 + 1)

end RHeap
end Verif
