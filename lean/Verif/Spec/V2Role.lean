import Verif.Model.V2Role

/-!
# Specification of the v2 role graph
-/

namespace Verif.Spec

/-- `b` is a child of `a`. -/
def Edge (d : Dag) (a b : Str) : Prop := ∃ cs, (a, cs) ∈ d.edges ∧ b ∈ cs

/-- No role reaches itself through one or more child links. -/
def Acyclic (d : Dag) : Prop := ∀ r, ¬ Relation.TransGen (Edge d) r r

/-- `Route d a is b`: following the child positions `is` from `a` leads to `b`. -/
inductive Route (d : Dag) : Str → List Nat → Str → Prop where
  | here {a : Str} : Route d a [] a
  | down {a b c : Str} {cs : List Str} {i : Nat} {is : List Nat} :
      (a, cs) ∈ d.edges → cs[i]? = some c → Route d c is b → Route d a (i :: is) b

/-- A route that starts at one of the listed roles. -/
def RouteFrom (d : Dag) (cs : List Str) : List Nat → Str → Prop
  | [], _ => False
  | i :: is, b => ∃ c, cs[i]? = some c ∧ Route d c is b

/-- `r` is a registered role. -/
def Registered (d : Dag) (r : Str) : Prop := ∃ a, (r, a) ∈ d.roles

/-- `b` is reached from `r` through registered roles only (both ends included). -/
inductive Below (d : Dag) (r : Str) : Str → Prop where
  | self : Registered d r → Below d r r
  | step {a b : Str} : Below d r a → Edge d a b → Registered d b → Below d r b

/-- The role object registered as `r` has the permission `x`. -/
def HasPerm (d : Dag) (r x : Str) : Prop := ∃ a o, (r, a) ∈ d.roles ∧ d.objs[a]? = some o ∧ x ∈ o.perms

/-- What role `r` should grant: its permissions and those of the registered roles below it. -/
def PermClosure (d : Dag) (r x : Str) : Prop := ∃ b, Below d r b ∧ HasPerm d b x

end Verif.Spec
