import Verif.Model.Manager

/-!
# Goroutines calling the methods of tenants (/repo/tenant.go) and the registrations of their manager

Every read or write of a field of a tenant, every `Get` and `Set` of a concurrent map and every `AddData` is one step;
a goroutine may be interrupted between any two of them.

Simplifications: one manager.  The identifiers of tenants and roles never change after construction
(permission.go:7-12, 25-31), so a call reads them once.  `AddData` is one step (what happens when insertions interleave inside the
trie is the subject of TrieConc and TrieRace).  A plain field read or write is one step (Go's memory model does not promise this for a
data race; C113 says when there is one).  `AddDescendant` takes one tenant (tenant.go:41-50 is a loop over the tenants given), and the
list forms `AddPrincipal`, `AssignScopesToPrincipal`, `AddNamespaces`, `AddRoles`, `AddScopes` and `AddTenants` are loops over the calls here,
made one after the other by the same goroutine.
-/

namespace Verif
namespace NC

/-- The registries that the calls use (role_manager.go:12-23). -/
inductive Reg where
  | tenants | namespaces | scopes | principals | roles
  deriving DecidableEq

/-- The registry in a manager. -/
def Reg.of (w : Mgr) : Reg → GoMap Str Nat
  | .tenants => w.tenants
  | .namespaces => w.namespaces
  | .scopes => w.scopes
  | .principals => w.principals
  | .roles => w.roles

/-- Replace a registry. -/
def Reg.put (w : Mgr) (m : GoMap Str Nat) : Reg → Mgr
  | .tenants => { w with tenants := m }
  | .namespaces => { w with namespaces := m }
  | .scopes => { w with scopes := m }
  | .principals => { w with principals := m }
  | .roles => { w with roles := m }

/-- The calls. -/
inductive Op where
  | addTenant (a : Nat)
  | addNamespace (id : Str) (obj : Nat)
  | addScope (id : Str) (obj : Nat)
  | addPrincipal (id : Str) (obj : Nat)
  | addRole (r : Nat)
  | tAddNamespace (c : Nat) (n : Str)
  | tAddScopesToNamespace (c : Nat) (n s : Str)
  | tSetDefaultNamespace (c : Nat) (n : Str)
  | tAddPrincipalInNamespace (c : Nat) (p n r : Str)
  | tAddRole (c : Nat) (r : Str)
  | tAddScope (c : Nat) (s : Str)
  | tAddPrincipalWithRole (c : Nat) (p r : Str) (manage : Bool)
  | tAddScopeToPrincipal (c : Nat) (p s : Str) (manage : Bool)
  | tAddDescendant (c d : Nat)
  deriving DecidableEq

/-- What is left of a call, step by step. -/
inductive Prog where
  /-- Return. -/
  | ret (e : Option Err)
  /-- Dereference a nil pointer. -/
  | crash
  /-- Read `c.manager` and dereference it. -/
  | readMgr (c : Nat) (k : Prog)
  /-- Write `c.manager`. -/
  | writeMgr (c : Nat) (k : Prog)
  /-- `Get` in a registry. -/
  | get (r : Reg) (id : Str) (k : Bool → Prog)
  /-- `Set` in a registry. -/
  | set (r : Reg) (id : Str) (obj : Nat) (k : Prog)
  /-- Read `c.defaultNamespace`. -/
  | readDef (c : Nat) (k : Option Str → Prog)
  /-- Write `c.defaultNamespace`. -/
  | writeDef (c : Nat) (n : Str) (k : Prog)
  /-- `AddData`. -/
  | insert (d : Data) (k : Prog)
  /-- `c.descendants.Get`. -/
  | getDesc (c : Nat) (id : Str) (k : Bool → Prog)
  /-- `c.descendants.Set`. -/
  | setDesc (c : Nat) (id : Str) (d : Nat) (k : Prog)

/-- The body shared by the registrations (tenant.go:145-149, namespace.go:18-22, scope.go:18-22, principal.go:13-17,
permission.go:59-63). -/
def register (r : Reg) (id : Str) (obj : Nat) : Prog :=
  .get r id fun ok => if ok then .ret none else .set r id obj (.ret none)

/-- A method that adds one row (tenant.go:27, 60, 70, 74, 85). -/
def addRow (c : Nat) (d : Data) : Prog := .readMgr c (.insert d (.ret none))

/-- The body shared by `AddPrincipalWithRole` (tenant.go:96-106) and `AddScopeToPrincipal` (tenant.go:120-130): `x` is looked up
in the registry `r`, `row ns` is the row for the namespace `ns`.  `c.defaultNamespace` is read twice (tenant.go:103-104, 127-128). -/
def grant (c : Nat) (p : Str) (r : Reg) (x : Str) (err : Err) (row : Option Str → Data) : Prog :=
  .readMgr c <| .get .principals p fun ok =>
    if ok then
      .readMgr c <| .get r x fun ok =>
        if ok then
          .readMgr c <| .insert (row none) <| .readDef c fun o =>
            match o with
            | none => .ret none
            | some _ => .readMgr c <| .readDef c fun o =>
              match o with
              | none => .crash
              | some n => .insert (row (some n)) (.ret none)
        else .ret (some err)
    else .ret (some .noPrincipal)

/-- A namespace as the field of a row. -/
def nsVal : Option Str → Val
  | none => .nil
  | some n => .str n

/-- `SetDefaultNamespace` (tenant.go:63-67), followed by `k`. -/
def setDefault (c : Nat) (n : Str) (k : Prog) : Prog :=
  .readMgr c <| .get .namespaces n fun ok => if ok then .writeDef c n k else k

/-- One round of `AddDescendant` (tenant.go:42-49); `did` is the identifier of `d`.  `c.defaultNamespace` is read three times (lines
45, 46, 47). -/
def link (c d : Nat) (did : Str) : Prog :=
  let rest : Prog := .readDef c fun o =>
    match o with
    | none => .ret none
    | some _ => .readDef c fun o =>
      match o with
      | none => .crash
      | some n => .readMgr d <| .insert { tenant := .str did, namespace_ := .str n } <| .readDef c fun o =>
        match o with
        | none => .crash
        | some n => setDefault d n (.ret none)
  .getDesc c did fun ok => if ok then rest else .setDesc c did d rest

/-- The steps of a call that begins in state `w` (read for the identifiers of tenants and roles only). -/
def Op.prog (w : Mgr) : Op → Prog
  | .addTenant a =>
    match w.tobjs[a]? with
    | none => .crash
    | some t => .writeMgr a (register .tenants t.id a)
  | .addNamespace id obj => register .namespaces id obj
  | .addScope id obj => register .scopes id obj
  | .addPrincipal id obj => register .principals id obj
  | .addRole r =>
    match w.heap.roles[r]? with
    | none => .crash
    | some ro => register .roles ro.id r
  | .tAddNamespace c n => tenant w c fun t => addRow c { tenant := .str t, namespace_ := .str n }
  | .tAddScopesToNamespace c n s => tenant w c fun t => addRow c { tenant := .str t, namespace_ := .str n, scope := .str s }
  | .tSetDefaultNamespace c n => tenant w c fun _ => setDefault c n (.ret none)
  | .tAddPrincipalInNamespace c p n r => tenant w c fun t =>
    addRow c { tenant := .str t, namespace_ := .str n, role := .str r, principal := .str p }
  | .tAddRole c r => tenant w c fun t => addRow c { tenant := .str t, role := .str r }
  | .tAddScope c s => tenant w c fun t => addRow c { tenant := .str t, scope := .str s }
  | .tAddPrincipalWithRole c p r m => tenant w c fun t => grant c p .roles r .noRole fun n =>
    { tenant := .str t, namespace_ := nsVal n, principal := .str p, role := .str r, manage := .bool m }
  | .tAddScopeToPrincipal c p s m => tenant w c fun t => grant c p .scopes s .noScope fun n =>
    { tenant := .str t, namespace_ := nsVal n, scope := .str s, principal := .str p, manage := .bool m }
  | .tAddDescendant c d => tenant w c fun _ => tenant w d fun t => link c d t
where
  /-- The identifier of the tenant at address `c`; an address without a tenant is no pointer a program has. -/
  tenant (w : Mgr) (c : Nat) (f : Str → Prog) : Prog :=
    match w.tobjs[c]? with
    | none => .crash
    | some t => f t.id

/-- Change the tenant at address `c`. -/
def onTenant {α : Type} (w : Mgr) (c : Nat) (f : TenantObj → Out α) : Out α :=
  match w.tobjs[c]? with
  | none => .panic
  | some t => f t

/-- One step of a call (a call that is to return does not step here). -/
def exec (w : Mgr) : Prog → Out (Mgr × Prog)
  | .ret _ => .diverge
  | .crash => .panic
  | .readMgr c k => onTenant w c fun t => if t.managed then .ok (w, k) else .panic
  | .writeMgr c k => onTenant w c fun t => .ok ({ w with tobjs := w.tobjs.set c { t with managed := true } }, k)
  | .get r id k => .ok (w, k ((r.of w).get id).isSome)
  | .set r id obj k => .ok (r.put w ((r.of w).set id obj), k)
  | .readDef c k => onTenant w c fun t => .ok (w, k t.defNs)
  | .writeDef c n k => onTenant w c fun t => .ok ({ w with tobjs := w.tobjs.set c { t with defNs := some n } }, k)
  | .insert d k => (w.addData d).map fun w' => (w', k)
  | .getDesc c id k => onTenant w c fun t => .ok (w, k (t.desc.get id).isSome)
  | .setDesc c id d k => onTenant w c fun t =>
    .ok ({ w with tobjs := w.tobjs.set c { t with desc := t.desc.set id d } }, k)

/-- What a goroutine did: the call numbered `n` began, the call numbered `n` returned. -/
inductive Ev where
  | call (n : Nat) (op : Op)
  | ret (n : Nat) (op : Op) (e : Option Err)
  deriving DecidableEq

/-- The manager, what each goroutine is in (the number of the call, the call, the rest of it), and what happened. -/
structure Conf where
  w : Mgr
  th : List (Option (Nat × Op × Prog))
  hist : List Ev := []

/-- What the scheduler does: goroutine `i` begins a call, or takes a step.  What a goroutine calls next may depend on anything. -/
inductive Sched where
  | start (i : Nat) (op : Op)
  | go (i : Nat)

/-- `panic`: the program has crashed.  `diverge`: nothing of the kind can happen here. -/
def Conf.step (c : Conf) : Sched → Out Conf
  | .start i op =>
    match c.th[i]? with
    | some none => .ok { c with th := c.th.set i (some (c.hist.length, op, op.prog c.w)), hist := c.hist ++ [.call c.hist.length op] }
    | _ => .diverge
  | .go i =>
    match c.th[i]? with
    | some (some (n, op, .ret e)) => .ok { c with th := c.th.set i none, hist := c.hist ++ [.ret n op e] }
    | some (some (n, op, p)) => (exec c.w p).map fun x => { c with w := x.1, th := c.th.set i (some (n, op, x.2)) }
    | _ => .diverge

/-- A schedule. -/
def Conf.run (c : Conf) : List Sched → Out Conf
  | [] => .ok c
  | s :: ss => (c.step s).bind fun c' => c'.run ss

/-- `k` goroutines, none in a call. -/
def Conf.start (w : Mgr) (k : Nat) : Conf := { w := w, th := List.replicate k none }

end NC
end Verif
