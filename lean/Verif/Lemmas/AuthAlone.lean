import Verif.Model.AuthDuring
import Verif.Props.SearchOrder

/-!
# `Authorize` step by step, without interruption, is `Authorize`
-/

namespace Verif

mutual
/-- The length of the longest path. -/
def Node.height {T : Type} : Node T → Nat
  | .mk _ ch => ch.height
def Forest.height {T : Type} : Forest T → Nat
  | .nil => 0
  | .cons _ n rest => max (n.height + 1) rest.height
end

/-- The order does not look at the elements: it is a function of the stamp and the number of elements. -/
def Ord.Natural (o : Ord) : Prop := ∀ (s : List Val) (α β : Type) (f : α → β) (l : List α), o.ord s β (l.map f) = (o.ord s α l).map f

theorem Ord.natural_fwd : Ord.Natural .fwd := fun _ _ _ _ _ => rfl

theorem Ord.natural_rev : Ord.Natural .rev := fun _ _ _ f l => (List.map_reverse (f := f) (l := l)).symm

theorem Ord.natural_byIndex (σ : List Val → List Nat) : Ord.Natural (.byIndex σ) := by
  intro s α β f l
  simp only [Ord.byIndex, permute, List.length_map]
  split
  · rw [List.map_filterMap]
    congr 1
    funext i
    simp
  · rfl

namespace AD
variable {w : Mgr} {o : Ord}

theorem exec_bind {α β : Type} (q : Prog α) (k : α → Prog β) (w : Mgr) :
    (q.bind k).exec w = (q.exec w).bind fun x => (k x.1).exec x.2 := by
  induction q generalizing w with
  | ret a => rfl
  | panic => rfl
  | diverge => rfl
  | step f n ih => exact ih w (f w)

/-- The program only reads, and its result is `x`. -/
def Reads {α : Type} (q : Prog α) (w : Mgr) (x : Out α) : Prop := q.exec w = x.map fun a => (a, w)

theorem Reads.ret {α : Type} (a : α) : Reads (.ret a) w (.ok a) := rfl

theorem Reads.bind {α β : Type} {q : Prog α} {k : α → Prog β} {x : Out α} {K : α → Out β} (h : Reads q w x)
    (hk : ∀ a, x = .ok a → Reads (k a) w (K a)) : Reads (q.bind k) w (x.bind K) := by
  unfold Reads at h ⊢
  rw [exec_bind, h]
  cases x with
  | ok a => exact hk a rfl
  | panic => rfl
  | diverge => rfl

theorem Reads.map {α β : Type} {q : Prog α} {f : α → β} {x : Out α} (h : Reads q w x) : Reads (q.bind fun a => .ret (f a)) w (x.map f) := by
  unfold Reads at h ⊢
  rw [exec_bind, h]
  cases x <;> rfl

theorem Reads.rd {α β : Type} {f : Mgr → α} {k : α → Prog β} {x : Out β} (h : Reads (k (f w)) w x) : Reads (AD.rd f k) w x := h

theorem Reads.local_ {α β : Type} {y : Out α} {k : α → Prog β} {K : α → Out β} (h : ∀ a, y = .ok a → Reads (k a) w (K a)) :
    Reads (AD.local_ y k) w (y.bind K) := by
  cases y with
  | ok a => exact h a rfl
  | panic => rfl
  | diverge => rfl

theorem Reads.collectP {α β : Type} {f : Nat → α → Prog (List β)} {F : Nat → α → Out (List β)} (h : ∀ i x, Reads (f i x) w (F i x))
    (i : Nat) (xs : List α) : Reads (collectP f i xs) w (Out.collectI F i xs) := by
  induction xs generalizing i with
  | nil => rfl
  | cons x xs ih =>
    rw [AD.collectP, Out.collectI]
    exact (h i x).bind fun a _ => (ih (i + 1)).map

theorem Reads.anyP {α : Type} {f : Nat → α → Prog Bool} {F : Nat → α → Out Bool} (h : ∀ i x, Reads (f i x) w (F i x))
    (i : Nat) (xs : List α) : Reads (anyP f i xs) w (Out.anyI F i xs) := by
  induction xs generalizing i with
  | nil => rfl
  | cons x xs ih =>
    have e : Out.anyI F i (x :: xs) = (F i x).bind fun b => if b then .ok true else Out.anyI F (i + 1) xs := by
      rw [Out.anyI]
      cases F i x with
      | ok b => cases b <;> rfl
      | panic => rfl
      | diverge => rfl
    rw [AD.anyP, e]
    refine (h i x).bind fun a _ => ?_
    cases a with
    | true => rfl
    | false => exact ih (i + 1)

/-! ## Searches -/

theorem walk_append {T : Type} {p : List Val} {k : Val} {n : Node T} {d : Option T} {ch : Forest T} (h : n.walk p = some (.mk d ch)) :
    n.walk (p ++ [k]) = ch.get k := by
  induction p generalizing n with
  | nil =>
    cases n; cases h
    simp only [List.nil_append, Node.walk]
    cases ch.get k <;> rfl
  | cons a p ih =>
    cases n with
    | mk d' ch' =>
      rw [List.cons_append, Node.walk] at *
      cases hg : ch'.get a with
      | none => rw [hg] at h; cases h
      | some m => rw [hg] at h; exact ih h

/-- The visit of the child named `k`. -/
def visitOf {T : Type} (o : Ord) (cb : T → Bool) (path : List Val) (ch : Forest T) (k : Val) (res : List T) : Bool × List T :=
  match ch.get k with
  | some m => m.dfs o cb false (path ++ [k]) res
  | none => (false, res)

theorem visits_eq {T : Type} (o : Ord) (cb : T → Bool) (path : List Val) (ch : Forest T) (h : ch.keys.Nodup) :
    ch.visits o cb false path = ch.names.map (visitOf o cb path ch) := by
  have key : ∀ (rest : Forest T), rest.keys.Nodup → (∀ k, k ∈ rest.keys → ch.get k = rest.get k) →
      rest.visits o cb false path = rest.names.map (visitOf o cb path ch) := by
    intro rest
    fun_induction Forest.names rest with
    | case1 => intro _ _; rfl
    | case2 k n rest ih =>
      intro hn hg
      rw [Forest.keys, List.nodup_cons] at hn
      rw [Forest.visits, List.map_cons, ih hn.2]
      · congr 1
        funext res
        rw [visitOf, hg k (by simp [Forest.keys])]
        simp [Forest.get]
      · intro k' hk'
        rw [hg k' (by simp [Forest.keys, hk']), Forest.get, if_neg]
        rintro rfl
        exact hn.1 hk'
  exact key ch h fun _ _ => rfl

theorem height_get {T : Type} {ch : Forest T} {k : Val} {m : Node T} (h : ch.get k = some m) : m.height < ch.height := by
  fun_induction Forest.get k ch with
  | case1 => cases h
  | case2 => cases h; simp [Forest.height]; omega
  | case3 k' n rest hne ih => have := ih h; simp [Forest.height]; omega

theorem wf_get {T : Type} {ch : Forest T} {k : Val} {m : Node T} (hw : ch.WF) (h : ch.get k = some m) : m.WF := by
  fun_induction Forest.get k ch with
  | case1 => cases h
  | case2 => cases h; rw [Forest.WF] at hw; exact hw.2.1
  | case3 k' n rest hne ih => rw [Forest.WF] at hw; exact ih hw.2.2 h

theorem names_keys {T : Type} (ch : Forest T) : ch.names = ch.keys := by
  fun_induction Forest.names ch with
  | case1 => rfl
  | case2 k n rest ih => rw [Forest.keys, ih]

theorem get_of_mem {T : Type} {ch : Forest T} {k : Val} (h : k ∈ ch.keys) : ∃ m, ch.get k = some m := by
  fun_induction Forest.get k ch with
  | case1 => cases h
  | case2 => exact ⟨_, rfl⟩
  | case3 k' n rest hne ih => exact ih ((List.mem_cons.1 (by rwa [Forest.keys] at h)).resolve_left (fun e => hne e.symm))

theorem loopP_reads {ch : Forest Data} {cb : Data → Bool} {pre path : List Val} {n : Nat}
    (hk : ∀ k m res, ch.get k = some m → Reads (visitP o pre cb n (path ++ [k]) res) w (.ok (m.dfs o cb false (pre ++ path ++ [k]) res).2))
    (ks : List Val) (hks : ∀ k ∈ ks, k ∈ ch.keys) (res : List Data) :
    Reads (loopP (fun k => visitP o pre cb n (path ++ [k])) ks res) w (.ok (runVisits (ks.map (visitOf o cb (pre ++ path) ch)) res).2) := by
  induction ks generalizing res with
  | nil => rfl
  | cons k ks ih =>
    obtain ⟨m, hm⟩ := get_of_mem (hks k (by simp))
    rw [loopP, List.map_cons, runVisits]
    have e : visitOf o cb (pre ++ path) ch k res = m.dfs o cb false (pre ++ path ++ [k]) res := by rw [visitOf, hm]
    have f := (Node.dfs_all o cb (pre ++ path ++ [k]) m res).1
    rw [e]
    have r := hk k m res hm
    generalize m.dfs o cb false (pre ++ path ++ [k]) res = y at f r
    obtain ⟨b, res'⟩ := y
    simp only at f; subst f
    exact r.bind (K := fun x => .ok (runVisits (ks.map (visitOf o cb (pre ++ path) ch)) x).2) fun a ha => by
      cases ha; exact ih (fun k hk => hks k (by simp [hk])) _

theorem visitP_reads (nat : o.Natural) {pre : List Val} {cb : Data → Bool} {n : Nat} {path : List Val} {m : Node Data} {res : List Data}
    (hm : w.trie.root.walk path = some m) (hw : m.WF) (hh : m.height < n) :
    Reads (visitP o pre cb n path res) w (.ok (m.dfs o cb false (pre ++ path) res).2) := by
  induction n generalizing path m res with
  | zero => omega
  | succ n ih =>
    cases m with
    | mk d ch =>
      rw [Node.WF] at hw
      rw [Node.height] at hh
      rw [visitP, dfs_mk, visits_eq o cb _ ch hw.1, nat]
      refine Reads.rd (Reads.rd ?_)
      rw [hm]
      suffices H : ∀ res', res' = res ++ (own cb d).map (·.2) → Reads (loopP (fun k => visitP o pre cb n (path ++ [k]))
          (o.ord (pre ++ path) Val ch.names) res') w (.ok (runVisits ((o.ord (pre ++ path) Val ch.names).map (visitOf o cb (pre ++ path) ch))
            (res ++ (own cb d).map (·.2))).2) by
        refine H _ ?_
        cases d with
        | none => simp [own, Node.row]
        | some x => by_cases h : cb x <;> simp [own, Node.row, h, Option.filter]
      rintro _ rfl
      refine loopP_reads (fun k m' res' hg => ?_) _ (fun k hk => ?_) _
      · rw [List.append_assoc]
        exact ih (by rw [walk_append hm]; exact hg) (wf_get hw.2 hg) (by have := height_get hg; omega)
      · rw [← names_keys]; exact (o.perm _ _ _).mem_iff.1 hk

theorem searchP_reads (nat : o.Natural) (hw : w.trie.root.WF) {fuel : Nat} (hh : w.trie.root.height < fuel) {site : List Val} {filter : Data}
    {f : Data → Data → Bool} : Reads (searchP o fuel site filter f) w (.ok (w.search o site filter f)) := by
  have := visitP_reads (w := w) nat (pre := site ++ [.nil]) (cb := f filter) (n := fuel) (path := []) (res := []) rfl hw hh
  rw [List.append_nil] at this
  exact this

/-! ## Roles and tenants -/

theorem descRolesP_reads {n : Nat} {site : List Val} {r : Nat} : Reads (descRolesP o n site r) w (w.heap.descRoles o n site r) := by
  induction n generalizing site r with
  | zero => rfl
  | succ n ih =>
    rw [descRolesP, RHeap.descRoles]
    refine Reads.rd ?_
    cases w.heap.roles[r]? with
    | none => rfl
    | some ro => exact Reads.collectP (fun i x => ih.map) _ _

theorem descendantsP_reads {n : Nat} {site : List Val} {r : Nat} : Reads (descendantsP o n site r) w (w.descendants o n site r) := by
  induction n generalizing site r with
  | zero => rfl
  | succ n ih =>
    rw [descendantsP, Mgr.descendants]
    refine Reads.rd ?_
    cases w.tobjs[r]? with
    | none => rfl
    | some ro => exact Reads.collectP (fun i x => ih.map) _ _

theorem hasP_reads {group name : Str} {allowed : List Str} {n : Nat} {site : List Val} {r : Nat} :
    Reads (hasP o group name allowed n site r) w (w.heap.has o group name allowed n site r) := by
  induction n generalizing site r with
  | zero => rfl
  | succ n ih =>
    rw [hasP, RHeap.has]
    refine Reads.rd ?_
    cases w.heap.roles[r]? with
    | none => rfl
    | some ro =>
      dsimp only [Option.map_some]
      cases ro.perms.get group with
      | none => rfl
      | some ga =>
        refine Reads.rd ?_
        dsimp only
        cases hg : w.heap.groups[ga]? with
        | none => rfl
        | some g =>
          dsimp only [Option.map_some]
          cases (g.perms.get name).isSome with
          | true => rfl
          | false =>
            refine Reads.rd ?_
            rw [hg]
            dsimp only [Option.map_some]
            refine Reads.local_ fun matched _ => ?_
            cases matched with
            | true => rfl
            | false =>
              refine descRolesP_reads.bind fun ds _ => Reads.anyP (fun i d => Reads.rd ?_) _ _
              cases w.heap.roles[d]? with
              | none => rfl
              | some dr =>
                dsimp only [Option.map_some]
                split
                · split
                  · exact ih
                  · rfl
                · exact ih

theorem tenantChildrenP_exec {fuel : Nat} {site : List Val} {id : Str} : (tenantChildrenP o fuel site id).exec w = w.tenantChildren o fuel site id := by
  rw [tenantChildrenP, Mgr.tenantChildren]
  simp only [rd, Prog.exec]
  cases w.hierarchy.get id with
  | some h => rfl
  | none =>
    simp only [Prog.exec]
    cases w.tenants.get id with
    | none => rfl
    | some c =>
      simp only
      rw [exec_bind, show (descendantsP o fuel site c).exec w = _ from descendantsP_reads]
      cases w.descendants o fuel site c <;> rfl

theorem implicitLoopP_exec {fuel : Nat} {site : List Val} {rows : List Data} {i : Nat} {E : List Str} :
    (implicitLoopP o fuel site i rows E).exec w = Mgr.implicitLoop o fuel site i rows E w := by
  induction rows generalizing i E w with
  | nil => rfl
  | cons row rows ih =>
    rw [implicitLoopP, Mgr.implicitLoop]
    cases row.tenant with
    | str t =>
      dsimp only
      by_cases h : t ∈ E
      · rw [if_pos h, if_pos h]; exact ih
      rw [if_neg h, if_neg h]
      by_cases hm : row.manage = .bool true
      · rw [if_pos hm, if_pos hm, exec_bind, tenantChildrenP_exec]
        cases w.tenantChildren o fuel (site ++ [.int i]) t with
        | ok x =>
          simp only [Out.bind]
          cases Mgr.addDescs (E ++ [t]) x.1 with
          | ok E' => exact ih
          | panic => rfl
          | diverge => rfl
        | panic => rfl
        | diverge => rfl
      · rw [if_neg hm, if_neg hm]; exact ih
    | nil => rfl
    | bool b => rfl
    | int z => rfl

theorem implicitTenantsP_exec (nat : o.Natural) (hw : w.trie.root.WF) {fuel : Nat} (hh : w.trie.root.height < fuel) {site : List Val} {p : Str} :
    (implicitTenantsP o fuel site p).exec w = w.implicitTenants o fuel site p := by
  rw [implicitTenantsP, Mgr.implicitTenants]
  simp only [rd, Prog.exec]
  cases w.pcache.get p with
  | some I => rfl
  | none =>
    simp only
    rw [exec_bind, show (searchP o fuel _ _ _).exec w = _ from searchP_reads nat hw hh]
    simp only [Out.map, Out.bind]
    rw [exec_bind, implicitLoopP_exec]
    cases Mgr.implicitLoop o fuel (site ++ [.int 1]) 0 (w.search o (site ++ [.int 0]) { principal := .str p } filterTenantsByPrincipal) [] w <;> rfl

/-! ## The decision -/

theorem validOneP_reads {m : Mgr → GoMap Str Nat} {v : Val} : Reads (validOneP m v) w (Mgr.validOne (m w) v) := by
  cases v <;> rfl

theorem validateP_reads {r : Request} : Reads (validateP r) w (w.validateResources r) := by
  rw [validateP, Mgr.validateResources]
  refine Reads.bind (validOneP_reads (m := (·.tenants))) fun a _ => ?_
  cases a with
  | false => rfl
  | true =>
    refine Reads.bind (validOneP_reads (m := (·.namespaces))) fun b _ => ?_
    cases b with
    | false => rfl
    | true => exact validOneP_reads (m := (·.scopes))

theorem concatP_reads {α : Type} {f : Nat → α → Prog (List Data)} {F : Nat → α → List Data} (h : ∀ i x, Reads (f i x) w (.ok (F i x)))
    (i : Nat) (xs : List α) : Reads (concatP f i xs) w (.ok (Mgr.concatI F i xs)) := by
  induction xs generalizing i with
  | nil => rfl
  | cons x xs ih =>
    rw [concatP, Mgr.concatI]
    exact (h i x).bind (K := fun a => .ok (a ++ Mgr.concatI F (i + 1) xs)) fun a _ => (ih (i + 1)).map

section
variable (nat : o.Natural) (hw : w.trie.root.WF) {fuel : Nat} (hh : w.trie.root.height < fuel)
include nat hw hh

theorem tenantsByPrincipalP_reads {site : List Val} {p : Val} :
    Reads (tenantsByPrincipalP o fuel site p) w (.ok (w.tenantsByPrincipal o site p)) :=
  (searchP_reads nat hw hh).map

theorem checkNoActivityP_reads {site : List Val} {p : Str} {r : Request} {f : Flags} :
    Reads (checkNoActivityP o fuel site p r f) w (.ok (w.checkNoActivity o site p r f)) := by
  rw [checkNoActivityP, Mgr.checkNoActivity]
  split
  · exact (tenantsByPrincipalP_reads nat hw hh).map
  split
  · exact (searchP_reads nat hw hh).map
  split
  · exact (searchP_reads nat hw hh).map
  split
  · refine (tenantsByPrincipalP_reads nat hw hh).bind (K := fun ts => (Out.ok (Mgr.concatI (fun i t => w.search o (site ++ [.int 1, .int i])
      { principal := .str p, tenant := t, namespace_ := r.namespace_ } filterScopeForPrincipalByTenantAndNamespace) 0 ts)).map
        fun rows => contains r.scope (getIDs (·.scope) [] [] rows)) fun ts _ => ?_
    exact (concatP_reads (fun i x => searchP_reads nat hw hh) _ _).map
  split
  · exact (searchP_reads nat hw hh).map
  · rfl

theorem collectWithP_reads {site : List Val} {t : Val} {filter : Data} {f : Data → Data → Bool} {keep : Data → Bool} :
    Reads (collectWithP o fuel site t filter f keep) w
      ((Mgr.appendRoles (fun _ => true) (w.rolesByTenant o (site ++ [.int 0]) t)).bind fun allowed =>
        (Mgr.appendRoles keep (w.search o (site ++ [.int 1]) filter f)).map fun roles => (roles, allowed)) := by
  rw [collectWithP]
  refine (show Reads (rolesByTenantP o fuel (site ++ [.int 0]) t) w (.ok (w.rolesByTenant o (site ++ [.int 0]) t)) from
    searchP_reads nat hw hh).bind (K := fun rows => (Mgr.appendRoles (fun _ => true) rows).bind fun allowed =>
      (Mgr.appendRoles keep (w.search o (site ++ [.int 1]) filter f)).map fun roles => (roles, allowed)) fun rows _ => ?_
  refine Reads.local_ fun allowed _ => ?_
  refine (searchP_reads nat hw hh).bind (K := fun rows => (Mgr.appendRoles keep rows).map fun roles => (roles, allowed)) fun rows _ => ?_
  cases h : Mgr.appendRoles keep rows <;> rfl

theorem collectRolesP_reads {site : List Val} {p : Str} {t : Val} : Reads (collectRolesP o fuel site p t) w (w.collectRoles o site p t) := by
  rw [collectRolesP, Mgr.collectRoles]
  refine (show Reads (rolesByTenantP o fuel (site ++ [.int 0]) t) w (.ok (w.rolesByTenant o (site ++ [.int 0]) t)) from
    searchP_reads nat hw hh).bind (K := fun rows => (Mgr.appendRoles (fun d => d.principal = .str p) rows).bind fun roles =>
      (Mgr.appendRoles (fun _ => true) rows).map fun allowed => (roles, allowed)) fun rows _ => ?_
  refine Reads.local_ fun roles _ => ?_
  cases h : Mgr.appendRoles (fun _ => true) rows <;> rfl

theorem collectRolesNSLoopP_reads {site : List Val} {p : Str} {n s : Val} {ts : List Data} {i : Nat} :
    Reads (collectRolesNSLoopP o fuel site p n s i ts) w (w.collectRolesNSLoop o site p n s i ts) := by
  induction ts generalizing i with
  | nil => rfl
  | cons t ts ih =>
    rw [collectRolesNSLoopP, Mgr.collectRolesNSLoop]
    exact (collectWithP_reads nat hw hh).bind fun x _ => ih.map

omit nat hw hh in
theorem roleLoopP_reads {site : List Val} {r : Request} {roles allowed : List Str} {i : Nat} :
    Reads (roleLoopP o fuel site r i allowed roles) w (w.roleLoop o fuel site r i allowed roles) := by
  induction roles generalizing i allowed with
  | nil => rfl
  | cons role rest ih =>
    rw [roleLoopP, Mgr.roleLoop]
    refine Reads.rd ?_
    cases w.roles.get role with
    | none => exact ih
    | some a =>
      dsimp only
      cases r.group with
      | str g =>
        cases r.activity with
        | str act =>
          refine hasP_reads.bind fun b _ => ?_
          cases b with
          | true => rfl
          | false => exact ih
        | nil => rfl
        | bool b => rfl
        | int z => rfl
      | nil => rfl
      | bool b => rfl
      | int z => rfl

theorem checkActivityP_reads {site : List Val} {p : Str} {r : Request} {f : Flags} :
    Reads (checkActivityP o fuel site p r f) w (w.checkActivity o fuel site p r f) := by
  have pick : ∀ {b : Bool} {q : Prog (List Str × List Str)} {x : Out (List Str × List Str)} {old : List Str × List Str},
      Reads q w x → Reads (pickP b q old) w (Mgr.pick b x old) := by
    intro b q x old h
    cases b with
    | true => exact h
    | false => rfl
  rw [checkActivityP, Mgr.checkActivity]
  split
  · rfl
  split
  · rfl
  refine (pick (collectRolesP_reads nat hw hh)).bind fun x _ => (pick (collectWithP_reads nat hw hh)).bind fun x _ =>
    (pick (collectWithP_reads nat hw hh)).bind fun x _ => (pick ?_).bind fun x _ => (pick (collectWithP_reads nat hw hh)).bind fun x _ => ?_
  · exact (searchP_reads nat hw hh).bind (K := fun ts => w.collectRolesNSLoop o _ p r.namespace_ r.scope 0 ts) fun ts _ =>
      collectRolesNSLoopP_reads nat hw hh
  · split
    · rfl
    · exact roleLoopP_reads

theorem checkP_reads {site : List Val} {p : Str} {r : Request} {f : Flags} : Reads (checkP o fuel site p r f) w (w.check o fuel site p r f) := by
  rw [checkP, Mgr.check]
  split
  · exact checkNoActivityP_reads nat hw hh
  · exact checkActivityP_reads nat hw hh

theorem fallbackP_reads {site : List Val} {p : Str} {f : Flags} {ts : List Str} {r : Request} {i : Nat} :
    Reads (fallbackP o fuel site p f i r ts) w (w.fallback o fuel site p f i r ts) := by
  induction ts generalizing i r with
  | nil => rfl
  | cons t ts ih =>
    rw [fallbackP, Mgr.fallback]
    split
    · exact ih
    · refine (checkP_reads nat hw hh).bind fun b _ => ?_
      cases b with
      | true => rfl
      | false => exact ih

end

/-- Uninterrupted, the steps of `Authorize` are `Authorize`. -/
theorem authorizeP_exec (inv : w.Inv) (nat : o.Natural) {fuel : Nat} (hh : w.trie.root.height < fuel) {site : List Val} {p : Str} {opts : List Opt} :
    (authorizeP o fuel site p opts).exec w = w.authorize o fuel site p opts := by
  rw [authorizeP, Mgr.authorize]
  simp only [rd, Prog.exec]
  cases hp : (w.principals.get p).isNone with
  | true => rfl
  | false =>
    simp only [Bool.false_eq_true, if_false]
    rw [exec_bind, implicitTenantsP_exec nat inv.trie.wf hh]
    cases hI : w.implicitTenants o fuel (site ++ [.int 0]) p with
    | panic => rfl
    | diverge => rfl
    | ok x =>
      simp only [Out.bind]
      have inv' := (Mgr.implicitTenants_inv inv hI).1
      have hh' : x.2.trie.root.height < fuel := by
        have : x.2.trie = w.trie := by rw [(Mgr.implicitTenants_inv inv hI).2.1]
        rw [this]; exact hh
      split
      · rfl
      · rw [exec_bind, show (validateP _).exec x.2 = _ from validateP_reads]
        cases x.2.validateResources (opts.foldl Opt.apply {}) with
        | panic => rfl
        | diverge => rfl
        | ok a =>
          cases a with
          | false => rfl
          | true =>
            simp only [Out.map, Out.bind, Bool.not_true, Bool.false_eq_true, if_false]
            rw [exec_bind, show (checkP o fuel _ p _ _).exec x.2 = _ from checkP_reads nat inv'.trie.wf hh']
            cases x.2.check o fuel (site ++ [.int 1]) p (opts.foldl Opt.apply {}) (flagsOf (opts.foldl Opt.apply {})) with
            | panic => rfl
            | diverge => rfl
            | ok b =>
              cases b with
              | true => rfl
              | false => exact fallbackP_reads nat inv'.trie.wf hh'

end AD
end Verif
