import Verif.Model.Role
import Verif.Spec.Match

/-!
# Specification of role permissions

Flat reachability specification over the objects (uses only the data types of the model).
-/

namespace Verif.Spec

/-- `d` is a direct descendant of `r`. -/
def Child (h : RHeap) (r d : Nat) : Prop := ∃ ro k, h.roles[r]? = some ro ∧ (k, d) ∈ ro.desc

/-- `d` is a transitive descendant of `r` (one or more links). -/
inductive Desc (h : RHeap) : Nat → Nat → Prop where
  | child {r d : Nat} : Child h r d → Desc h r d
  | step {r c d : Nat} : Child h r c → Desc h c d → Desc h r d

/-- Role `r` carries the group named `group`, with object `g`. -/
def GroupOf (h : RHeap) (r : Nat) (group : Str) (g : GroupObj) : Prop :=
  ∃ ro ga, h.roles[r]? = some ro ∧ (group, ga) ∈ ro.perms ∧ h.groups[ga]? = some g

/-- Role `r` itself lists or matches the activity under the group. -/
def OwnGrant (h : RHeap) (r : Nat) (group name : Str) : Prop :=
  ∃ g, GroupOf h r group g ∧ ∃ k a, (k, a) ∈ g.perms ∧ (k = name ∨ Matches k name)

/-- What `Role.Has` is supposed to decide. -/
def Granted (h : RHeap) (allowed : List Str) (group name : Str) (r : Nat) : Prop :=
  (∃ g, GroupOf h r group g) ∧
  (OwnGrant h r group name ∨
    ∃ d dr, Desc h r d ∧ h.roles[d]? = some dr ∧ (allowed = [] ∨ dr.id ∈ allowed) ∧
      OwnGrant h d group name)

/-- All stored addresses exist and every stored map has unique keys. -/
structure RHeap.OK (h : RHeap) : Prop where
  desc : ∀ r ∈ h.roles, ∀ e ∈ r.desc, e.2 < h.roles.length
  perms : ∀ r ∈ h.roles, ∀ e ∈ r.perms, e.2 < h.groups.length
  descWF : ∀ r ∈ h.roles, GoMap.WF r.desc
  permsWF : ∀ r ∈ h.roles, GoMap.WF r.perms
  groupWF : ∀ g ∈ h.groups, GoMap.WF g.perms
  /-- an attribute is stored under its own text -/
  keyed : ∀ g ∈ h.groups, ∀ e ∈ g.perms, e.1 = e.2.resource ++ 32 :: e.2.action

end Verif.Spec
