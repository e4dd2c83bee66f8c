import Verif.Model.Manager

/-!
# Goroutines calling `Authorize` of the root package

While nothing else is called, `Authorize` (authorize.go:9-44) reads registries, trie, tenants and roles that
nobody changes, and reads and fills two concurrent maps: `principalCache` (query.go:40, 60) and
`hierarchy` (role_manager.go:125, 133).  Every access to one of these two maps is the end of a step here, and a
goroutine may be interrupted between any two steps.

Simplifications: what a step does besides its access to one of the two maps only reads what nobody
changes, so it is one step with it; a panic in one goroutine ends the program; the bound of the
recursions is the same for all calls.
-/

namespace Verif
namespace AC

/-- A call of `Authorize` (authorize.go:9), with the iteration orders it meets. -/
structure Call where
  o : Ord
  site : List Val := []
  p : Str
  opts : List Opt

/-- Where a goroutine stands in a call. -/
inductive Spot where
  /-- before `u.GetPrincipal` (authorize.go:10) -/
  | enter
  /-- before `u.principalCache.Get` (query.go:40) -/
  | cache
  /-- before round `i` of the loop over the rows (query.go:46); `E` is `existingTenant` -/
  | loop (i : Nat) (rows : List Data) (E : List Str)
  /-- before `u.hierarchy.Set` (role_manager.go:133) -/
  | fill (i : Nat) (rest : List Data) (E : List Str) (t : Str) (ds : List Str)
  /-- before `u.principalCache.Set` (query.go:60) -/
  | store (E : List Str)
  /-- after `u.GetImplicitTenants` (authorize.go:19) -/
  | decide (I : List Str)

/-- `Authorize` after `GetImplicitTenants` has returned `I` (authorize.go:20-43). -/
def decideWith (w : Mgr) (o : Ord) (fuel : Nat) (site : List Val) (p : Str) (r : Request) (I : List Str) : Out Bool :=
  if I.length = 0 then .ok false
  else
    (w.validateResources r).bind fun v =>
    if !v then .ok false
    else
      (w.check o fuel (site ++ [.int 1]) p r (flagsOf r)).bind fun b =>
      if b then .ok true
      else w.fallback o fuel (site ++ [.int 2]) p (flagsOf r) 0 r (o.ord (site ++ [.int 3]) _ I)

/-- One step of a call: the manager after it, and where the call stands, or what it returns.
`Authorize` (authorize.go:9-44), `GetImplicitTenants` (query.go:39-62), `TenantChildren`
(role_manager.go:124-135). -/
def step1 (fuel : Nat) (w : Mgr) (k : Call) : Spot → Out (Mgr × (Spot ⊕ Bool))
  | .enter => if (w.principals.get k.p).isNone then .ok (w, .inr false) else .ok (w, .inl .cache)
  | .cache =>
    match w.pcache.get k.p with
    | some I => .ok (w, .inl (.decide I))
    | none => .ok (w, .inl (.loop 0
        (w.search k.o (k.site ++ [.int 0] ++ [.int 0]) { principal := .str k.p } filterTenantsByPrincipal) []))
  | .loop _ [] E => .ok (w, .inl (.store E))
  | .loop i (rs :: rest) E =>
    match rs.tenant with
    | .str t =>
      if t ∈ E then .ok (w, .inl (.loop (i + 1) rest E))
      else if rs.manage = .bool true then
        match w.hierarchy.get t with
        | some hier => (Mgr.addDescs (E ++ [t]) hier).map fun E' => (w, .inl (.loop (i + 1) rest E'))
        | none =>
          match w.tenants.get t with
          | none => .ok (w, .inl (.loop (i + 1) rest (E ++ [t])))
          | some c =>
            (w.descendants k.o fuel (k.site ++ [.int 0] ++ [.int 1] ++ [.int i]) c).map fun ds =>
              (w, .inl (.fill (i + 1) rest (E ++ [t]) t ds))
      else .ok (w, .inl (.loop (i + 1) rest (E ++ [t])))
    | _ => .panic
  | .fill i rest E t ds =>
    (Mgr.addDescs E (ds.map Val.str)).map fun E' =>
      ({ w with hierarchy := w.hierarchy.set t (compact (ds.map Val.str)) }, .inl (.loop i rest E'))
  | .store E => .ok ({ w with pcache := w.pcache.set k.p E }, .inl (.decide E))
  | .decide I => (decideWith w k.o fuel k.site k.p (k.opts.foldl Opt.apply {}) I).map fun b => (w, .inr b)

/-- A goroutine: the call it is in, the calls still to make, and the calls that returned, with the
answers. -/
structure Thread where
  cur : Option (Call × Spot) := none
  todo : List Call
  out : List (Call × Bool) := []

structure Conf where
  w : Mgr
  ts : List Thread

/-- Goroutine `i` takes one step; one that has nothing to do changes nothing.  `none`: the step panics (and with
it the program) or does not return. -/
def Conf.step (fuel : Nat) (c : Conf) (i : Nat) : Option Conf :=
  match c.ts[i]? with
  | none => some c
  | some t =>
    match t.cur with
    | none =>
      match t.todo with
      | [] => some c
      | k :: rest => some { c with ts := c.ts.set i { t with cur := some (k, .enter), todo := rest } }
    | some (k, s) =>
      match step1 fuel c.w k s with
      | .ok (w, .inl s') => some { w := w, ts := c.ts.set i { t with cur := some (k, s') } }
      | .ok (w, .inr b) => some { w := w, ts := c.ts.set i { t with cur := none, out := t.out ++ [(k, b)] } }
      | _ => none

/-- The goroutines named take one step each, in this order. -/
def Conf.run (fuel : Nat) (c : Conf) : List Nat → Option Conf
  | [] => some c
  | i :: is => (c.step fuel i).bind fun c' => c'.run fuel is

/-- Goroutines about to make the given calls. -/
def Conf.start (w : Mgr) (calls : List (List Call)) : Conf :=
  { w := w, ts := calls.map fun l => { todo := l } }

/-- The answers given so far. -/
def Conf.answers (c : Conf) : List (List Bool) := c.ts.map fun t => t.out.map (·.2)

end AC
end Verif
