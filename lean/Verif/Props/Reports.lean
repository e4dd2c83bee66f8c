import Verif.Model.Reports
import Verif.Props.Getters

/-!
# C63, C64: the reports of the root package
(permission.go:84-115, activity_group.go:35-86)
-/

namespace Verif
open Spec

section Maps
variable {κ ν : Type} [DecidableEq κ]

/-- A map of slices: unique keys, no empty slice. -/
structure Slices (m : GoMap κ (List ν)) : Prop where
  wf : GoMap.WF m
  ne : ∀ k, m.get k ≠ some []

theorem Slices.nil : Slices ([] : GoMap κ (List ν)) := ⟨GoMap.wf_nil, by simp⟩

theorem Slices.append {m : GoMap κ (List ν)} (h : Slices m) (k : κ) (v : ν) : Slices (appendOne m k v) := by
  refine ⟨GoMap.wf_set h.wf k _, fun k' => ?_⟩
  rw [appendOne, GoMap.get_set]
  split
  · simp
  · exact h.ne k'

theorem GoMap.filter_key {m : GoMap κ ν} (wf : GoMap.WF m) (k : κ) :
    m.filter (fun e => e.1 = k) = (match GoMap.get m k with | none => [] | some v => [(k, v)]) := by
  induction m with
  | nil => rfl
  | cons e t ih =>
    obtain ⟨a, v⟩ := e
    simp only [GoMap.WF, List.map_cons, List.nodup_cons] at wf
    rw [List.filter_cons, GoMap.get]
    by_cases h : a = k
    · subst h
      simp only [decide_true, if_true, List.cons.injEq, true_and]
      rw [List.filter_eq_nil_iff]
      intro x hx hxa
      simp only [decide_eq_true_eq] at hxa
      exact wf.1 (List.mem_map.2 ⟨x, hx, hxa⟩)
    · simp only [h, decide_false, Bool.false_eq_true, if_false]
      exact ih wf.2

theorem mem_appendOne {m : GoMap κ (List ν)} {k k' : κ} {v v' : ν} :
    v' ∈ ((appendOne m k v).get k').getD [] ↔ v' ∈ (m.get k').getD [] ∨ (k = k' ∧ v' = v) := by
  rw [appendOne, GoMap.get_set]
  by_cases h : k = k'
  · subst h; simp
  · simp [h]

theorem Slices.foldAppend {α : Type} {m : GoMap κ (List ν)} (h : Slices m) (f : α → κ) (g : α → ν) (l : List α) :
    Slices (l.foldl (fun m x => appendOne m (f x) (g x)) m) := by
  induction l generalizing m with
  | nil => exact h
  | cons x xs ih => exact ih (h.append _ _)

theorem mem_foldAppend {α : Type} {m : GoMap κ (List ν)} {f : α → κ} {g : α → ν} {l : List α} {k : κ} {v : ν} :
    v ∈ ((l.foldl (fun m x => appendOne m (f x) (g x)) m).get k).getD [] ↔
      v ∈ (m.get k).getD [] ∨ ∃ x ∈ l, f x = k ∧ g x = v := by
  induction l generalizing m with
  | nil => simp
  | cons x xs ih =>
    rw [List.foldl_cons, ih, mem_appendOne]
    simp only [List.mem_cons, exists_eq_or_imp, or_assoc, eq_comm (a := v)]

theorem Slices.isSome {m : GoMap κ (List ν)} (h : Slices m) {k : κ} :
    (m.get k).isSome ↔ ∃ v, v ∈ (m.get k).getD [] := by
  cases hg : m.get k with
  | none => simp
  | some l =>
    cases l with
    | nil => exact absurd hg (h.ne k)
    | cons v _ => simp

end Maps

namespace RHeap
variable {h : RHeap} {o : Ord}

theorem ownImplicit_wf {site : List Val} {i : Nat} {l : List (Str × Nat)} {acc m : GoMap Str (List Attr)}
    (wf : GoMap.WF acc) (hm : ownImplicit h o site i l acc = .ok m) : GoMap.WF m := by
  induction l generalizing i acc with
  | nil => cases hm; exact wf
  | cons e l ih =>
    obtain ⟨k, ga⟩ := e
    rw [ownImplicit] at hm
    split at hm
    · cases hm
    · exact ih (GoMap.wf_set wf _ _) hm

theorem ownImplicit_nodup (ok : Spec.RHeap.OK h) {site : List Val} {i : Nat} {l : List (Str × Nat)}
    {acc m : GoMap Str (List Attr)} (hl : (l.map (·.1)).Nodup) (hfree : ∀ e ∈ l, acc.get e.1 = none)
    (hacc : ∀ k, ((acc.get k).getD []).Nodup) (hm : ownImplicit h o site i l acc = .ok m) (k : Str) :
    ((m.get k).getD []).Nodup := by
  induction l generalizing i acc with
  | nil => cases hm; exact hacc k
  | cons e l ih =>
    obtain ⟨k0, ga⟩ := e
    rw [List.map_cons, List.nodup_cons] at hl
    rw [ownImplicit] at hm
    split at hm
    · cases hm
    · rename_i g hg
      refine ih hl.2 (fun e he => ?_) (fun k' => ?_) hm
      · rw [appendTo, GoMap.get_set, if_neg (fun hk => hl.1 (List.mem_map.2 ⟨e, he, hk.symm⟩))]
        exact hfree e (by simp [he])
      · rw [appendTo, GoMap.get_set]
        split
        · rw [hfree (k0, ga) (by simp)]
          simp only [Option.getD_none, List.nil_append, Option.getD_some]
          have hmem := List.mem_of_getElem? hg
          rw [((o.perm _ _ g.perms).map _).nodup_iff]
          have hwf : (g.perms.map (·.1)).Nodup := ok.groupWF g hmem
          have : g.perms.map (·.1) = (g.perms.map (·.2)).map (fun a : Attr => a.resource ++ 32 :: a.action) := by
            rw [List.map_map]
            exact List.map_congr_left fun e he => ok.keyed g hmem e he
          rw [this] at hwf
          exact List.Nodup.of_map _ hwf
        · exact hacc k'

theorem foldRoles_wf {f : Nat → Nat → GoMap Str (List Attr) → Out (GoMap Str (List Attr))} {ds : List Nat} {i : Nat}
    {acc m : GoMap Str (List Attr)} (hf : ∀ j d acc m, GoMap.WF acc → f j d acc = .ok m → GoMap.WF m)
    (wf : GoMap.WF acc) (hm : foldRoles f i ds acc = .ok m) : GoMap.WF m := by
  induction ds generalizing i acc with
  | nil => cases hm; exact wf
  | cons d ds ih =>
    rw [foldRoles, Out.bind_eq_ok] at hm
    obtain ⟨acc', h1, h2⟩ := hm
    exact ih (hf _ _ _ _ wf h1) h2

theorem allImplicit_wf {n : Nat} {site : List Val} {r : Nat} {acc m : GoMap Str (List Attr)} (wf : GoMap.WF acc)
    (hm : allImplicit h o n site r acc = .ok m) : GoMap.WF m := by
  induction n generalizing site r acc m with
  | zero => cases hm
  | succ n ih =>
    rw [allImplicit] at hm
    split at hm
    · cases hm
    · simp only [Out.bind_eq_ok] at hm
      obtain ⟨acc', h1, ds, -, h3⟩ := hm
      exact foldRoles_wf (fun j d acc m hw hx => ih hw hx) (ownImplicit_wf wf h1) h3

theorem ownImplicit_total {site : List Val} {i : Nat} {l : List (Str × Nat)} {acc : GoMap Str (List Attr)}
    (hl : ∀ e ∈ l, e.2 < h.groups.length) : ∃ m, ownImplicit h o site i l acc = .ok m := by
  induction l generalizing i acc with
  | nil => exact ⟨acc, rfl⟩
  | cons e l ih =>
    obtain ⟨k, ga⟩ := e
    have : h.groups[ga]? = some _ := List.getElem?_eq_getElem (hl (k, ga) (by simp))
    rw [ownImplicit, this]
    exact ih (fun e he => hl e (by simp [he]))

theorem foldRoles_total {f : Nat → Nat → GoMap Str (List Attr) → Out (GoMap Str (List Attr))} {ds : List Nat} {i : Nat}
    {acc : GoMap Str (List Attr)} (hf : ∀ j, ∀ d ∈ ds, ∀ acc, ∃ m, f j d acc = .ok m) :
    ∃ m, foldRoles f i ds acc = .ok m := by
  induction ds generalizing i acc with
  | nil => exact ⟨acc, rfl⟩
  | cons d ds ih =>
    obtain ⟨m, hm⟩ := hf i d (by simp) acc
    rw [foldRoles, hm]
    exact ih (fun j d hd => hf j d (by simp [hd]))

/-- `GetAllImplicitPermissions` returns, given stack enough, if no infinite chain of links starts at the role. -/
theorem allImplicit_total (ok : Spec.RHeap.OK h) {r : Nat} (hacc : Acc (Below h) r) (hlt : r < h.roles.length) :
    ∃ n, ∀ m ≥ n, ∀ o site acc, ∃ b, allImplicit h o m site r acc = .ok b := by
  have hdown : ∀ r d, Desc h r d → Acc (Below h) r → Acc (Below h) d := by
    intro r d hrd
    induction hrd with
    | child hc => intro ha; exact ha.inv hc
    | step hc _ ih => intro ha; exact ih (ha.inv hc)
  have hacc' : Acc (fun d r => Desc h r d) r := by
    have : ∀ r, Acc (Below h) r → Acc (fun d r => Desc h r d) r := by
      intro r hacc
      induction hacc with
      | intro r _ ih =>
        refine ⟨_, fun d hd => ?_⟩
        cases hd with
        | child hc => exact ih d hc
        | step hc hd => exact (ih _ hc).inv hd
    exact this r hacc
  induction hacc' with
  | intro r _ ih =>
    obtain ⟨ro, hr⟩ : ∃ ro, h.roles[r]? = some ro := ⟨_, List.getElem?_eq_getElem hlt⟩
    obtain ⟨n1, hn1⟩ := descRoles_total ok hacc hlt
    obtain ⟨ds0, hds0⟩ := hn1 .fwd []
    obtain ⟨n2, hn2⟩ := bound_exists
      (P := fun (d : Nat) n => ∀ m ≥ n, ∀ o site acc, ∃ b, allImplicit h o m site d acc = .ok b)
      (fun e n m hp hnm k hk => hp k (Nat.le_trans hnm hk)) ds0
      (fun d hd => by
        have hdd := (descRoles_mem hds0 d).1 hd
        exact ih d hdd (hdown r d hdd hacc) (desc_lt ok hdd))
    refine ⟨max n1 n2 + 1, fun m hm o site acc => ?_⟩
    obtain ⟨m, rfl⟩ : ∃ k, m = k + 1 := ⟨m - 1, by omega⟩
    rw [allImplicit, hr]
    simp only
    obtain ⟨acc', ha⟩ := ownImplicit_total (h := h) (o := o) (site := site) (i := 0)
      (l := o.ord (site ++ [.int 3]) _ ro.perms) (acc := acc)
      (fun e he => ok.perms ro (List.mem_of_getElem? hr) e (Ord.mem_ord.1 he))
    obtain ⟨ds, hds⟩ := hn1 o (site ++ [.int 1])
    have hds := descRoles_mono hds (m := m) (by omega)
    rw [ha, Out.bind_ok, hds, Out.bind_ok]
    refine foldRoles_total fun j d hd acc => ?_
    exact hn2 d ((descRoles_mem hds0 d).2 ((descRoles_mem hds d).1 hd)) m (by omega) _ _ _

end RHeap

/-! ## C63 -/

/-- The role object or one of its transitive descendants carries the attribute under the group. -/
def Holds (w : Mgr) (r : Nat) (c : Str) (a : Attr) : Prop :=
  ∃ d, (d = r ∨ Desc w.heap r d) ∧ ∃ g, GroupOf w.heap d c g ∧ ∃ key, (key, a) ∈ g.perms

namespace Mgr
variable {w : Mgr} {o : Ord}

abbrev Seen := GoMap Str (GoMap Attr (List Str))

structure SeenOK (s : Seen) : Prop where
  wf : GoMap.WF s
  inner : ∀ c m, s.get c = some m → Slices m

def InSeen (s : Seen) (c : Str) (a : Attr) (id : Str) : Prop := id ∈ (((s.get c).getD []).get a).getD []

theorem SeenOK.getD {s : Seen} (h : SeenOK s) (c : Str) : Slices ((s.get c).getD []) := by
  cases hg : s.get c with
  | none => exact Slices.nil
  | some m => exact h.inner c m hg

theorem seenGroups_spec {id : Str} {l : List (Str × List Attr)} {s : Seen} (h : SeenOK s) :
    SeenOK (seenGroups id s l) ∧ ∀ c a id', InSeen (seenGroups id s l) c a id' ↔
      InSeen s c a id' ∨ (id' = id ∧ ∃ e ∈ l, e.1 = c ∧ a ∈ e.2) := by
  induction l generalizing s with
  | nil => exact ⟨h, fun c a id' => by simp [seenGroups]⟩
  | cons e l ih =>
    obtain ⟨k, as⟩ := e
    have hs := (h.getD k).foldAppend (f := fun a : Attr => a) (g := fun _ => id) as
    have h1 : SeenOK (s.set k (as.foldl (fun gp a => appendOne gp a id) ((s.get k).getD []))) := by
      refine ⟨GoMap.wf_set h.wf _ _, fun c m hm => ?_⟩
      rw [GoMap.get_set] at hm
      split at hm
      · cases hm; exact hs
      · exact h.inner c m hm
    obtain ⟨a1, a2⟩ := ih h1
    refine ⟨a1, fun c a id' => ?_⟩
    refine (a2 c a id').trans ?_
    have : InSeen (s.set k (as.foldl (fun gp a => appendOne gp a id) ((s.get k).getD []))) c a id' ↔
        InSeen s c a id' ∨ (id' = id ∧ k = c ∧ a ∈ as) := by
      unfold InSeen
      rw [GoMap.get_set]
      by_cases hk : k = c
      · subst hk
        simp only [if_true, Option.getD_some]
        rw [mem_foldAppend (f := fun a : Attr => a) (g := fun _ => id)]
        constructor
        · rintro (h | ⟨x, hx, rfl, rfl⟩)
          · exact .inl h
          · exact .inr ⟨rfl, trivial, hx⟩
        · rintro (h | ⟨rfl, -, hx⟩)
          · exact .inl h
          · exact .inr ⟨a, hx, rfl, rfl⟩
      · simp [hk]
    rw [this]
    simp only [List.mem_cons, exists_eq_or_imp]
    grind

theorem seenRoles_spec {fuel : Nat} {site : List Val} {i : Nat} {l : List (Str × Nat)} {s s' : Seen}
    (h : SeenOK s) (hr : w.seenRoles o fuel site i l s = .ok s') :
    SeenOK s' ∧ ∀ c a id, InSeen s' c a id ↔ InSeen s c a id ∨
      ∃ e ∈ l, ∃ ro, w.heap.roles[e.2]? = some ro ∧ ro.id = id ∧ Holds w e.2 c a := by
  induction l generalizing i s with
  | nil => cases hr; exact ⟨h, fun c a id => by simp⟩
  | cons e l ih =>
    obtain ⟨k, r⟩ := e
    rw [seenRoles] at hr
    split at hr
    · cases hr
    · rename_i ro hro
      rw [Out.bind_eq_ok] at hr
      obtain ⟨m, hm, hr⟩ := hr
      obtain ⟨b1, b2⟩ := seenGroups_spec (id := ro.id) (l := o.ord (site ++ [.int 1, .int i]) _ m) h
      obtain ⟨a1, a2⟩ := ih b1 hr
      refine ⟨a1, fun c a id => ?_⟩
      rw [a2, b2, or_assoc]
      refine or_congr Iff.rfl ?_
      have hl : (∃ e ∈ o.ord (site ++ [.int 1, .int i]) _ m, e.1 = c ∧ a ∈ e.2) ↔ Holds w r c a := by
        rw [show Holds w r c a ↔ a ∈ (m.get c).getD [] from (C18_listing hm c a).symm]
        constructor
        · rintro ⟨⟨k, as⟩, he, rfl, ha⟩
          rw [(GoMap.mem_iff_get (RHeap.allImplicit_wf GoMap.wf_nil hm)).1 (Ord.mem_ord.1 he)]
          exact ha
        · intro ha
          cases hg : m.get c with
          | none => rw [hg] at ha; cases ha
          | some as =>
            rw [hg] at ha
            exact ⟨(c, as), Ord.mem_ord.2 (GoMap.get_some_mem hg), rfl, ha⟩
      rw [hl]
      simp only [List.mem_cons, exists_eq_or_imp, hro]
      grind

theorem availResponse_spec {site : List Val} {i : Nat} {l : List (Str × GoMap Attr (List Str))}
    {m : GoMap Str (List (Attr × List Str))} (hm : Slices m) :
    Slices (availResponse o site i l m) ∧
    ∀ c, ((availResponse o site i l m).get c).getD [] |>.Perm
      ((m.get c).getD [] ++ (l.filter (fun e => e.1 = c)).flatMap (·.2)) := by
  induction l generalizing i m with
  | nil => exact ⟨hm, fun c => by simp [availResponse]⟩
  | cons e l ih =>
    obtain ⟨k, ar⟩ := e
    have h1 := hm.foldAppend (f := fun _ : Attr × List Str => k) (g := fun x => x) (o.ord (site ++ [.int i]) _ ar)
    obtain ⟨a1, a2⟩ := ih (i := i + 1) h1
    refine ⟨a1, fun c => (a2 c).trans ?_⟩
    have key : ∀ (xs : List (Attr × List Str)) (m : GoMap Str (List (Attr × List Str))),
        ((xs.foldl (fun m x => appendOne m k x) m).get c).getD [] =
          (m.get c).getD [] ++ if k = c then xs else [] := by
      intro xs
      induction xs with
      | nil => simp
      | cons x xs ih =>
        intro m
        rw [List.foldl_cons, ih, appendOne, GoMap.get_set]
        by_cases hk : k = c
        · subst hk; simp
        · simp [hk]
    rw [key]
    by_cases hk : k = c
    · subst hk
      simp only [if_true, List.filter_cons, decide_true, List.flatMap_cons, List.append_assoc]
      exact ((o.perm _ _ ar).append_right _).append_left _
    · simp [hk]

end Mgr

/-- The response lists, per category, the entries of the map collected for it. -/
theorem Mgr.available_eq {w : Mgr} {o : Ord} {fuel : Nat} {site : List Val}
    {resp : GoMap Str (List (Attr × List Str))} (h : w.rolesForAvailable o fuel site = .ok resp) :
    ∃ seen : Seen, w.seenRoles o fuel (site ++ [.int 0]) 0 (o.ord (site ++ [.int 1]) _ w.roles) [] = .ok seen ∧
      SeenOK seen ∧ Slices resp ∧ ∀ c, ((resp.get c).getD []).Perm ((seen.get c).getD []) := by
  obtain ⟨seen, hs, rfl⟩ := Out.map_eq_ok.1 h
  obtain ⟨s1, -⟩ := Mgr.seenRoles_spec ⟨GoMap.wf_nil, by simp⟩ hs
  obtain ⟨r1, r2⟩ := Mgr.availResponse_spec (o := o) (site := site ++ [.int 2]) (i := 0)
    (l := o.ord (site ++ [.int 3]) _ seen) (m := []) Slices.nil
  refine ⟨seen, hs, s1, r1, fun c => (r2 c).trans ?_⟩
  simp only [GoMap.get_nil, Option.getD_none, List.nil_append]
  have : ((o.ord (site ++ [.int 3]) _ seen).filter (fun e => e.1 = c)).Perm (seen.filter (fun e => e.1 = c)) :=
    (o.perm _ _ seen).filter _
  refine (this.flatMap_right _).trans ?_
  rw [GoMap.filter_key s1.wf]
  cases GoMap.get seen c <;> simp

/-- C63. `GetRolesForAvailablePermissions` has an entry for an attribute under a category exactly if some registered
role holds it there, directly or through descendants; one entry per attribute; the entry names exactly those roles;
no category is empty. -/
theorem C63_report {w : Mgr} (inv : w.Inv) {o : Ord} {fuel : Nat} {site : List Val}
    {resp : GoMap Str (List (Attr × List Str))} (h : w.rolesForAvailable o fuel site = .ok resp) :
    GoMap.WF resp ∧ (∀ c, resp.get c ≠ some []) ∧
    (∀ c, (((resp.get c).getD []).map (·.1)).Nodup) ∧
    (∀ c a, (∃ ids, (a, ids) ∈ (resp.get c).getD []) ↔ ∃ id r, (id, r) ∈ w.roles ∧ Holds w r c a) ∧
    (∀ c a ids, (a, ids) ∈ (resp.get c).getD [] → ∀ id, id ∈ ids ↔ ∃ r, (id, r) ∈ w.roles ∧ Holds w r c a) := by
  obtain ⟨seen, hs, s1, r1, hperm⟩ := Mgr.available_eq h
  obtain ⟨-, s2⟩ := Mgr.seenRoles_spec ⟨GoMap.wf_nil, by simp⟩ hs
  have hin : ∀ c a id, Mgr.InSeen seen c a id ↔ ∃ r, (id, r) ∈ w.roles ∧ Holds w r c a := by
    intro c a id
    rw [s2]
    constructor
    · rintro (h | ⟨⟨k, r⟩, he, ro, hro, rfl, hh⟩)
      · simp [Mgr.InSeen] at h
      · obtain ⟨ro', h1, h2⟩ := inv.roles k r ((GoMap.mem_iff_get inv.regR).1 (Ord.mem_ord.1 he))
        simp only at hro hh
        rw [hro] at h1; cases h1
        exact ⟨r, h2 ▸ Ord.mem_ord.1 he, hh⟩
    · rintro ⟨r, hr, hh⟩
      obtain ⟨ro, h1, h2⟩ := inv.roles id r ((GoMap.mem_iff_get inv.regR).1 hr)
      exact .inr ⟨(id, r), Ord.mem_ord.2 hr, ro, h1, h2, hh⟩
  have hmem : ∀ c a ids, (a, ids) ∈ (resp.get c).getD [] ↔ ((seen.get c).getD []).get a = some ids := by
    intro c a ids
    rw [(hperm c).mem_iff, GoMap.mem_iff_get (s1.getD c).wf]
  refine ⟨r1.wf, r1.ne, fun c => ?_, fun c a => ?_, fun c a ids hm id => ?_⟩
  · rw [((hperm c).map _).nodup_iff]
    exact (s1.getD c).wf
  · simp only [hmem]
    rw [← Option.isSome_iff_exists, (s1.getD c).isSome]
    exact exists_congr fun id => hin c a id
  · rw [← hin, Mgr.InSeen, (hmem c a ids).1 hm]; rfl

/-- C63. The report is produced (given stack enough, for every iteration order) exactly if no registered role starts
an infinite chain of links. -/
theorem C63_returns {w : Mgr} (inv : w.Inv) :
    ((∃ n, ∀ m ≥ n, ∀ o site, ∃ resp, w.rolesForAvailable o m site = .ok resp) ↔
      ∀ id r, (id, r) ∈ w.roles → Acc (fun d r => Child w.heap r d) r) ∧
    ((∃ n o site resp, w.rolesForAvailable o n site = .ok resp) ↔
      ∀ id r, (id, r) ∈ w.roles → Acc (fun d r => Child w.heap r d) r) := by
  have fwd : ∀ {n o site resp}, w.rolesForAvailable o n site = .ok resp →
      ∀ id r, (id, r) ∈ w.roles → Acc (fun d r => Child w.heap r d) r := by
    intro n o site resp h id r hr
    obtain ⟨seen, hs, -⟩ := Out.map_eq_ok.1 h
    have key : ∀ (l : List (Str × Nat)) (i : Nat) (s : Mgr.Seen),
        w.seenRoles o n (site ++ [.int 0]) i l s = .ok seen → ∀ e ∈ l, Acc (fun d r => Child w.heap r d) e.2 := by
      intro l
      induction l with
      | nil => simp
      | cons e l ih =>
        intro i s hs e' he'
        obtain ⟨k, r⟩ := e
        rw [Mgr.seenRoles] at hs
        split at hs
        · cases hs
        · rw [Out.bind_eq_ok] at hs
          obtain ⟨m, hm, hs⟩ := hs
          rcases List.mem_cons.1 he' with rfl | he'
          · cases n with
            | zero => cases hm
            | succ n =>
              rw [RHeap.allImplicit] at hm
              split at hm
              · cases hm
              · simp only [Out.bind_eq_ok] at hm
                obtain ⟨_, _, ds, hds, _⟩ := hm
                exact RHeap.descRoles_acc hds
          · exact ih _ _ hs e' he'
    exact key _ _ _ hs (id, r) (Ord.mem_ord.2 hr)
  have bwd : (∀ id r, (id, r) ∈ w.roles → Acc (fun d r => Child w.heap r d) r) →
      ∃ n, ∀ m ≥ n, ∀ o site, ∃ resp, w.rolesForAvailable o m site = .ok resp := by
    intro hacc
    obtain ⟨n, hn⟩ := RHeap.bound_exists
      (P := fun (e : Str × Nat) n => ∀ m ≥ n, ∀ o site acc, ∃ b, w.heap.allImplicit o m site e.2 acc = .ok b)
      (fun e n m hp hnm k hk => hp k (Nat.le_trans hnm hk)) w.roles
      (fun e he => by
        obtain ⟨ro, h1, -⟩ := inv.roles e.1 e.2 ((GoMap.mem_iff_get inv.regR).1 he)
        exact RHeap.allImplicit_total inv.heap (hacc e.1 e.2 he) (List.getElem?_eq_some_iff.1 h1).1)
    refine ⟨n, fun m hm o site => ?_⟩
    have key : ∀ (l : List (Str × Nat)) (i : Nat) (s : Mgr.Seen), (∀ e ∈ l, e ∈ w.roles) →
        ∃ s', w.seenRoles o m (site ++ [.int 0]) i l s = .ok s' := by
      intro l
      induction l with
      | nil => exact fun i s _ => ⟨s, rfl⟩
      | cons e l ih =>
        intro i s hl
        obtain ⟨ro, h1, -⟩ := inv.roles e.1 e.2 ((GoMap.mem_iff_get inv.regR).1 (hl e (by simp)))
        obtain ⟨b, hb⟩ := hn e (hl e (by simp)) m hm o (site ++ [.int 0] ++ [.int 0, .int i]) []
        obtain ⟨k, r⟩ := e
        rw [Mgr.seenRoles, h1]
        simp only
        rw [hb]
        exact ih _ _ (fun e he => hl e (by simp [he]))
    obtain ⟨s', hs⟩ := key (o.ord (site ++ [.int 1]) _ w.roles) 0 [] (fun e he => Ord.mem_ord.1 he)
    exact ⟨_, Out.map_eq_ok.2 ⟨s', hs, rfl⟩⟩
  refine ⟨⟨?_, bwd⟩, ⟨?_, fun h => ?_⟩⟩
  · rintro ⟨n, hn⟩
    obtain ⟨resp, h⟩ := hn n (Nat.le_refl n) .fwd []
    exact fwd h
  · rintro ⟨n, o, site, resp, h⟩
    exact fwd h
  · obtain ⟨n, hn⟩ := bwd h
    obtain ⟨resp, h⟩ := hn n (Nat.le_refl n) .fwd []
    exact ⟨n, .fwd, [], resp, h⟩

/-! ### Repetitions -/

namespace Mgr
variable {w : Mgr} {o : Ord}

/-- How often the role id is listed for the attribute. -/
def times (s : Seen) (c : Str) (a : Attr) (id : Str) : Nat := ((((s.get c).getD []).get a).getD []).count id

theorem count_foldAppend (as : List Attr) (id id' : Str) (a : Attr) (gp : GoMap Attr (List Str)) :
    (((as.foldl (fun gp a => appendOne gp a id) gp).get a).getD []).count id' =
      ((gp.get a).getD []).count id' + if id' = id then as.count a else 0 := by
  induction as generalizing gp with
  | nil => simp
  | cons x xs ih =>
    rw [List.foldl_cons, ih, appendOne, GoMap.get_set]
    by_cases hx : x = a
    · subst hx
      by_cases hi : id' = id
      · subst hi; simp; omega
      · simp [hi, Ne.symm hi]
    · have hb : (x == a) = false := by simpa using hx
      simp [hx]

theorem times_seenGroups (id id' c : Str) (a : Attr) (l : List (Str × List Attr)) (s : Seen) :
    times (seenGroups id s l) c a id' =
      times s c a id' + if id' = id then ((l.filter (fun e => e.1 = c)).flatMap (·.2)).count a else 0 := by
  induction l generalizing s with
  | nil => simp [seenGroups]
  | cons e l ih =>
    obtain ⟨k, as⟩ := e
    refine (ih _).trans ?_
    have : times (s.set k (as.foldl (fun gp a => appendOne gp a id) ((s.get k).getD []))) c a id' =
        times s c a id' + if id' = id ∧ k = c then as.count a else 0 := by
      unfold times
      rw [GoMap.get_set]
      by_cases hk : k = c
      · subst hk
        simp only [if_true, Option.getD_some, and_true]
        exact count_foldAppend ..
      · simp [hk]
    rw [this, List.filter_cons]
    by_cases hk : k = c
    · subst hk
      by_cases hi : id' = id
      · simp [hi, List.count_append]; omega
      · simp [hi]
    · simp [hk]

theorem times_seenRoles {fuel : Nat} {site : List Val} {i : Nat} {l : List (Str × Nat)} {s s' : Seen}
    (hr : w.seenRoles o fuel site i l s = .ok s') (c : Str) (a : Attr) (id : Str) :
    (∀ e ∈ l, ∀ ro, w.heap.roles[e.2]? = some ro → ro.id ≠ id) ∧ times s' c a id = times s c a id ∨
    (∃ e ∈ l, ∃ ro, w.heap.roles[e.2]? = some ro ∧ ro.id = id) ∧
      ((l.Pairwise fun x y => ∀ rx ry, w.heap.roles[x.2]? = some rx → w.heap.roles[y.2]? = some ry → rx.id ≠ ry.id) →
        ∃ e ∈ l, ∃ ro, w.heap.roles[e.2]? = some ro ∧ ro.id = id ∧ ∃ site m,
        w.heap.allImplicit o fuel site e.2 [] = .ok m ∧
        times s' c a id = times s c a id + ((m.get c).getD []).count a) := by
  induction l generalizing i s with
  | nil => cases hr; exact .inl ⟨by simp, rfl⟩
  | cons e l ih =>
    obtain ⟨k, r⟩ := e
    rw [seenRoles] at hr
    split at hr
    · cases hr
    · rename_i ro hro
      rw [Out.bind_eq_ok] at hr
      obtain ⟨m, hm, hr⟩ := hr
      have hcount : ((((o.ord (site ++ [.int 1, .int i]) _ m).filter (fun e => e.1 = c)).flatMap (·.2)).count a) =
          ((m.get c).getD []).count a := by
        have h1 : (((o.ord (site ++ [.int 1, .int i]) _ m).filter (fun e => e.1 = c)).flatMap (·.2)).Perm
            ((m.filter (fun e => e.1 = c)).flatMap (·.2)) := (((o.perm _ _ m).filter _).flatMap_right _)
        rw [h1.count_eq, GoMap.filter_key (RHeap.allImplicit_wf GoMap.wf_nil hm)]
        cases GoMap.get m c <;> simp
      have ht := times_seenGroups ro.id id c a (o.ord (site ++ [.int 1, .int i]) _ m) s
      rw [hcount] at ht
      rcases ih hr with ⟨h1, h2⟩ | ⟨h1, h2⟩
      · by_cases hi : ro.id = id
        · refine .inr ⟨⟨(k, r), by simp, ro, hro, hi⟩, fun _ => ⟨(k, r), by simp, ro, hro, hi, _, m, hm, ?_⟩⟩
          rw [h2, ht, if_pos hi.symm]
        · refine .inl ⟨?_, by rw [h2, ht, if_neg (fun e => hi e.symm)]; rfl⟩
          intro e he ro' hro'
          rcases List.mem_cons.1 he with rfl | he
          · simp only at hro'; rw [hro] at hro'; cases hro'; exact hi
          · exact h1 e he ro' hro'
      · refine .inr ⟨?_, fun hp => ?_⟩
        · obtain ⟨e, he, h⟩ := h1
          exact ⟨e, by simp [he], h⟩
        · rw [List.pairwise_cons] at hp
          have hi : ro.id ≠ id := by
            obtain ⟨e, he, ro', hro', rfl⟩ := h1
            exact hp.1 e he ro ro' hro hro'
          obtain ⟨e, he, ro', hro', hid, site', m', hm', h3⟩ := h2 hp.2
          refine ⟨e, by simp [he], ro', hro', hid, site', m', hm', ?_⟩
          rw [h3, ht, if_neg (fun e => hi e.symm)]; rfl

end Mgr

/-- C63: how often a role is named for an attribute: as often as its own `GetAllImplicitPermissions` lists it. -/
theorem C63_times {w : Mgr} (inv : w.Inv) {o : Ord} {fuel : Nat} {site : List Val}
    {resp : GoMap Str (List (Attr × List Str))} (h : w.rolesForAvailable o fuel site = .ok resp)
    {c : Str} {a : Attr} {ids : List Str} (he : (a, ids) ∈ (resp.get c).getD []) {id : Str} {r : Nat}
    (hr : (id, r) ∈ w.roles) :
    ∃ site' m, w.heap.allImplicit o fuel site' r [] = .ok m ∧ ids.count id = ((m.get c).getD []).count a := by
  obtain ⟨seen, hs, s1, r1, hperm⟩ := Mgr.available_eq h
  obtain ⟨ro, hro, hid⟩ := inv.roles id r ((GoMap.mem_iff_get inv.regR).1 hr)
  have hids : ((seen.get c).getD []).get a = some ids := by
    rw [← GoMap.mem_iff_get (s1.getD c).wf, ← (hperm c).mem_iff]; exact he
  have hreg : ∀ e ∈ o.ord (site ++ [.int 1]) _ w.roles, ∀ ro, w.heap.roles[e.2]? = some ro → ro.id = e.1 := by
    intro e hm ro' hro'
    obtain ⟨ro2, h1, h2⟩ := inv.roles e.1 e.2 ((GoMap.mem_iff_get inv.regR).1 (Ord.mem_ord.1 hm))
    rw [hro'] at h1; cases h1; exact h2
  rcases Mgr.times_seenRoles hs c a id with ⟨h1, -⟩ | ⟨-, h2⟩
  · exact absurd hid (h1 (id, r) (Ord.mem_ord.2 hr) ro hro)
  · obtain ⟨e, hm, ro', hro', hid', site', m, hm', ht⟩ := h2 (by
      have hnd : (o.ord (site ++ [.int 1]) _ w.roles).Pairwise (fun x y => x.1 ≠ y.1) := by
        have : ((o.ord (site ++ [.int 1]) _ w.roles).map (·.1)).Nodup :=
          ((o.perm _ _ w.roles).map _).nodup_iff.2 inv.regR
        exact List.pairwise_map.1 this
      refine hnd.imp_of_mem fun hx hy hne rx ry h3 h4 => ?_
      rw [hreg _ hx rx h3, hreg _ hy ry h4]; exact hne)
    have hk : e.1 = id := by rw [← hreg e hm ro' hro', hid']
    have her : e.2 = r := by
      have h3 := (GoMap.mem_iff_get inv.regR).1 (Ord.mem_ord.1 hm)
      have h4 := (GoMap.mem_iff_get inv.regR).1 hr
      rw [hk, h4] at h3; exact (Option.some.inj h3).symm
    refine ⟨site', m, her ▸ hm', ?_⟩
    simpa [Mgr.times, hids] using ht

/-- The stronger claim: every role is named once per attribute. -/
def C63_full : Prop := ∀ (w : Mgr), w.Inv → ∀ (o : Ord) (fuel : Nat) (site : List Val)
  (resp : GoMap Str (List (Attr × List Str))), w.rolesForAvailable o fuel site = .ok resp →
  ∀ c a ids, (a, ids) ∈ (resp.get c).getD [] → ids.Nodup

/-- A role and its descendant share an attribute. -/
def exShared : List MOp := [
  .role (.newRole (str "boss")), .role (.newRole (str "worker")), .addRole 0, .addRole 1,
  .role (.addPerm 0 (str "g") [⟨str "/x", str "GET"⟩]), .role (.addPerm 1 (str "g") [⟨str "/x", str "GET"⟩]),
  .role (.addDesc 0 [1])]

set_option synthInstance.maxSize 4000 in
/-- C63: the role that holds the attribute both directly and by inheritance is named twice. -/
theorem C63_counterexample : ∃ w, MOp.run {} exShared = .ok w ∧
    w.rolesForAvailable .fwd 4 [] =
      .ok [(str "g", [(⟨str "/x", str "GET"⟩, [str "boss", str "boss", str "worker"])])] :=
  Out.chk_ok (by decide +kernel)

theorem C63_full_false : ¬ C63_full := by
  intro hf
  obtain ⟨w, hw, h⟩ := C63_counterexample
  have := hf w (MOp.reachable_inv hw) _ _ _ _ h (str "g") ⟨str "/x", str "GET"⟩
    [str "boss", str "boss", str "worker"] (by simp [GoMap.get])
  exact absurd this (by decide)

/-- C63, each role once, for roles without descendants. Missing: roles with descendants, for which it is false. -/
theorem C63_once_partial {w : Mgr} (inv : w.Inv) {o : Ord} {fuel : Nat} {site : List Val}
    {resp : GoMap Str (List (Attr × List Str))} (h : w.rolesForAvailable o fuel site = .ok resp)
    {c : Str} {a : Attr} {ids : List Str} (he : (a, ids) ∈ (resp.get c).getD []) {id : Str} {r : Nat}
    (hr : (id, r) ∈ w.roles) (hd : ∀ d, ¬ Child w.heap r d) : ids.count id ≤ 1 := by
  obtain ⟨site', m, hm, ht⟩ := C63_times inv h he hr
  rw [ht]
  refine List.nodup_iff_count_le_one.1 ?_ a
  cases fuel with
  | zero => cases hm
  | succ n =>
    rw [RHeap.allImplicit] at hm
    split at hm
    · cases hm
    · rename_i ro hro
      simp only [Out.bind_eq_ok] at hm
      obtain ⟨acc, h1, ds, h2, h3⟩ := hm
      have hds : ds = [] := by
        refine List.eq_nil_iff_forall_not_mem.2 fun d hmem => ?_
        cases (RHeap.descRoles_mem h2 d).1 hmem with
        | child hc => exact hd _ hc
        | step hc _ => exact hd _ hc
      subst hds
      cases h3
      refine RHeap.ownImplicit_nodup inv.heap ?_ (by simp) (by simp) h1 c
      exact ((o.perm _ _ ro.perms).map _).nodup_iff.2 (inv.heap.permsWF ro (List.mem_of_getElem? hro))

set_option synthInstance.maxSize 4000 in
/-- C63: no shared attribute; the report names each role once. -/
example : ∃ w, MOp.run {} (exShared.take 6) = .ok w ∧
    ((w.rolesForAvailable .rev 4 []).map fun r => r.map (·.2)) =
      .ok [[(⟨str "/x", str "GET"⟩, [str "worker", str "boss"])]] :=
  Out.chk_ok (by decide +kernel)

/-! ## C64 -/

/-- The principal has a row in the tenant. -/
def HasRow (w : Mgr) (p t : Val) : Prop := ∃ a, Stored w a ∧ Is a.principal p ∧ Is a.tenant t

/-- Scope rows of tenant `c`: those of namespace `n`, or all of them if there are none for that namespace. -/
def ScopeEntry (w : Mgr) (c n : Val) (e : Data) : Prop :=
  Stored w e ∧ Is e.tenant c ∧ e.scope ≠ .nil ∧
  (Is e.namespace_ n ∨ ∀ e', Stored w e' → Is e'.tenant c → e'.scope ≠ .nil → ¬ Is e'.namespace_ n)

/-- Role `r` is reported for scope `s`: `s` is the scope of an entry of the tenant (whoever's it is) and `r` is the
role (possibly nil) of any row of the principal there; or one row of the principal has both. -/
def Reported (w : Mgr) (p c n s r : Val) : Prop :=
  (∃ e a, ScopeEntry w c n e ∧ e.scope = s ∧ Stored w a ∧ Is a.principal p ∧ Is a.tenant c ∧ a.role = r) ∨
  (∃ a, Stored w a ∧ Is a.principal p ∧ Is a.tenant c ∧ a.scope = s ∧ s ≠ .nil ∧ a.role = r ∧ r ≠ .nil)

/-- The response lists each scope once, and under it exactly the roles in `R`. -/
def Response (resp : List (Val × List Val)) (R : Val → Val → Prop) : Prop :=
  (resp.map (·.1)).Nodup ∧ (∀ s, (∃ rs, (s, rs) ∈ resp) ↔ ∃ r, R s r) ∧
  ∀ s rs, (s, rs) ∈ resp → ∀ r, r ∈ rs ↔ R s r

namespace Mgr
variable {w : Mgr} {o : Ord}

theorem lists_principal (inv : w.Inv) {site : List Val} {p t n : Val} :
    Lists w (w.search o site { principal := p, tenant := t, namespace_ := n } filterPrincipalByTenant)
      (fun d => Is d.principal p ∧ Is d.tenant t) := by
  refine search_lists inv fun d => ?_
  unfold filterPrincipalByTenant
  grind [matchTenant, matchPrincipal, isNil, Is]

theorem scopeRoles_spec (inv : w.Inv) {site : List Val} {p c n : Val} {tps : List Data}
    (ht : ∀ d, d ∈ tps ↔ Stored w d ∧ Is d.principal p ∧ Is d.tenant c) :
    Response (w.scopeRoles o site p c n tps) (Reported w p c n) := by
  have e0 : ∀ d, d ∈ w.search o (site ++ [.int 0]) { principal := p, tenant := c, namespace_ := n }
      filterScopeByTenantAndNamespace ↔ Stored w d ∧ Is d.tenant c ∧ d.scope ≠ .nil ∧ Is d.namespace_ n := by
    intro d
    rw [mem_search inv]
    unfold filterScopeByTenantAndNamespace
    grind [matchTenant, matchNamespace, isNil, Is]
  have e1 : ∀ d, d ∈ w.search o (site ++ [.int 1]) { principal := p, tenant := c, namespace_ := n }
      filterScopeByTenant ↔ Stored w d ∧ Is d.tenant c ∧ d.scope ≠ .nil := by
    intro d
    rw [mem_search inv]
    unfold filterScopeByTenant
    grind [matchTenant, isNil, Is]
  have e2 : ∀ d, d ∈ w.search o (site ++ [.int 2]) { principal := p, tenant := c, namespace_ := n }
      filterScopePrincipalByTenant ↔ Stored w d ∧ Is d.principal p ∧ Is d.tenant c ∧ d.scope ≠ .nil ∧ d.role ≠ .nil := by
    intro d
    rw [mem_search inv]
    unfold filterScopePrincipalByTenant
    grind [matchTenant, matchPrincipal, isNil, Is]
  unfold scopeRoles
  simp only
  generalize hents : (if (w.search o (site ++ [.int 0]) { principal := p, tenant := c, namespace_ := n }
      filterScopeByTenantAndNamespace).length = 0 then w.search o (site ++ [.int 1])
      { principal := p, tenant := c, namespace_ := n } filterScopeByTenant else
      w.search o (site ++ [.int 0]) { principal := p, tenant := c, namespace_ := n }
      filterScopeByTenantAndNamespace) = ents
  have he : ∀ d, d ∈ ents ↔ ScopeEntry w c n d := by
    intro d
    subst hents
    unfold ScopeEntry
    split
    · rename_i h0
      rw [e1]
      rw [List.length_eq_zero_iff, List.eq_nil_iff_forall_not_mem] at h0
      simp only [e0] at h0
      constructor
      · rintro ⟨a, b, c'⟩; exact ⟨a, b, c', .inr fun e' h1 h2 h3 h4 => h0 e' ⟨h1, h2, h3, h4⟩⟩
      · rintro ⟨a, b, c', -⟩; exact ⟨a, b, c'⟩
    · rename_i h0
      rw [e0]
      constructor
      · rintro ⟨a, b, c', d'⟩; exact ⟨a, b, c', .inl d'⟩
      · rintro ⟨a, b, c', d' | d'⟩
        · exact ⟨a, b, c', d'⟩
        · refine absurd (List.length_eq_zero_iff.2 (List.eq_nil_iff_forall_not_mem.2 fun e' he' => ?_)) h0
          obtain ⟨h1, h2, h3, h4⟩ := (e0 e').1 he'
          exact d' e' h1 h2 h3 h4
  generalize hl : joinSlices ents tps (fun e a => matchTenant e a)
    (fun e a => ({ tenant := e.tenant, scope := e.scope, principal := a.principal, role := a.role } : Data)) ++
    w.search o (site ++ [.int 2]) { principal := p, tenant := c, namespace_ := n } filterScopePrincipalByTenant = l
  have hrep : ∀ s r, (∃ x ∈ l, x.scope = s ∧ x.role = r) ↔ Reported w p c n s r := by
    intro s r
    subst hl
    rw [C13_join]
    unfold Reported
    simp only [List.mem_append, List.mem_map, List.mem_filter, List.mem_flatMap, e2]
    constructor
    · rintro ⟨x, (⟨⟨e, a⟩, ⟨⟨e', hee, a', haa, heq⟩, hm⟩, rfl⟩ | hx), h1, h2⟩
      · cases heq
        exact .inl ⟨e, a, (he e).1 hee, h1, ((ht a).1 haa).1, ((ht a).1 haa).2.1, ((ht a).1 haa).2.2, h2⟩
      · exact .inr ⟨x, hx.1, hx.2.1, hx.2.2.1, h1, h1 ▸ hx.2.2.2.1, h2, h2 ▸ hx.2.2.2.2⟩
    · rintro (⟨e, a, h1, h2, h3, h4, h5, h6⟩ | ⟨a, h1, h2, h3, h4, h5, h6, h7⟩)
      · refine ⟨_, .inl ⟨(e, a), ⟨⟨e, (he e).2 h1, a, (ht a).2 ⟨h3, h4, h5⟩, rfl⟩, ?_⟩, rfl⟩, h2, h6⟩
        rw [matchTenant_iff]
        exact ⟨h1.2.1.1 ▸ h1.2.1.2, by rw [h1.2.1.1, h5.1]⟩
      · exact ⟨a, .inr ⟨h1, h2, h3, h4 ▸ h5, h6 ▸ h7⟩, h4, h6⟩
  have hs := Slices.nil.foldAppend (f := fun d : Data => d.scope) (g := fun d => d.role) l
  have hm := fun k v => mem_foldAppend (m := []) (f := fun d : Data => d.scope) (g := fun d => d.role) (l := l)
    (k := k) (v := v)
  simp only [GoMap.get_nil, Option.getD_none, List.not_mem_nil, false_or, hrep] at hm
  refine ⟨((o.perm _ _ _).map _).nodup_iff.2 hs.wf, fun s => ?_, fun s rs hmem r => ?_⟩
  · simp only [Ord.mem_ord, GoMap.mem_iff_get hs.wf]
    rw [← Option.isSome_iff_exists, hs.isSome]
    exact exists_congr fun r => hm s r
  · rw [Ord.mem_ord, GoMap.mem_iff_get hs.wf] at hmem
    rw [← hm, hmem]; rfl

theorem otherTenant_spec (inv : w.Inv) {site : List Val} {p t n : Val} {i : Nat} {l : List Str} {cur : Val} :
    (∃ x ∈ l, .str x ≠ t ∧ HasRow w p (.str x) ∧ (w.otherTenant o site p t n i l cur).1 = .str x ∧
      ∀ d, d ∈ (w.otherTenant o site p t n i l cur).2 ↔ Stored w d ∧ Is d.principal p ∧ Is d.tenant (.str x)) ∨
    ((∀ x ∈ l, .str x ≠ t → ¬ HasRow w p (.str x)) ∧ (w.otherTenant o site p t n i l cur).2 = [] ∧
      ((w.otherTenant o site p t n i l cur).1 = cur ∨
        ∃ x ∈ l, .str x ≠ t ∧ (w.otherTenant o site p t n i l cur).1 = .str x)) := by
  induction l generalizing i cur with
  | nil => exact .inr ⟨by simp, rfl, .inl rfl⟩
  | cons x l ih =>
    rw [otherTenant]
    split
    · rename_i hx
      rcases ih (i := i + 1) (cur := cur) with ⟨y, hy, h⟩ | ⟨h1, h2, h3⟩
      · exact .inl ⟨y, by simp [hy], h⟩
      · refine .inr ⟨fun y hy hne => ?_, h2, h3.imp id fun ⟨y, hy, h⟩ => ⟨y, by simp [hy], h⟩⟩
        rcases List.mem_cons.1 hy with rfl | hy
        · exact absurd hx.symm hne
        · exact h1 y hy hne
    · rename_i hx
      simp only
      have hl := lists_principal inv (o := o) (site := site ++ [.int i]) (p := p) (t := .str x) (n := n)
      split
      · rename_i h0
        obtain ⟨d, hd⟩ := List.exists_mem_of_length_pos h0
        exact .inl ⟨x, by simp, fun e => hx e.symm, ⟨d, (hl.2 d).1 hd⟩, rfl, hl.2⟩
      · rename_i h0
        have hno : ¬ HasRow w p (.str x) := fun ⟨d, hd⟩ => h0 (List.length_pos_of_mem ((hl.2 d).2 hd))
        rcases ih (i := i + 1) (cur := .str x) with ⟨y, hy, h⟩ | ⟨h1, h2, h3⟩
        · exact .inl ⟨y, by simp [hy], h⟩
        · refine .inr ⟨fun y hy hne => ?_, h2, .inr ?_⟩
          · rcases List.mem_cons.1 hy with rfl | hy
            · exact hno
            · exact h1 y hy hne
          · rcases h3 with h3 | ⟨y, hy, h⟩
            · exact ⟨x, by simp, fun e => hx e.symm, h3⟩
            · exact ⟨y, by simp [hy], h⟩

end Mgr

/-- The tenant the report is about: the requested one if the principal has a row there, otherwise another tenant of
the implicit tenants `I` in which the principal has a row. -/
def ReportTenant (w : Mgr) (p t : Val) (I : List Str) (c : Val) : Prop :=
  (HasRow w p t ∧ c = t) ∨ (¬ HasRow w p t ∧ HasRow w p c ∧ c ≠ t ∧ ∃ x ∈ I, c = .str x)

/-- C64. `GetScopesWithRolesForPrincipal` reports on one tenant: the requested one or, if the principal has no row
there, some other implicit tenant with a row of the principal; the report is empty if there is none. It lists each
scope once, with exactly the roles described by `Reported`. -/
theorem C64_report {w w' : Mgr} (inv : w.Inv) {o : Ord} {fuel : Nat} {site : List Val} {p t n : Val}
    {resp : List (Val × List Val)} (h : w.scopesWithRoles o fuel site p t n = .ok (resp, w')) :
    ∃ I, ((HasRow w p t ∧ w' = w) ∨
        ∃ ps, p = .str ps ∧ w.implicitTenants o fuel (site ++ [.int 1]) ps = .ok (I, w')) ∧
      ((∃ c, ReportTenant w p t I c ∧ Response resp (Reported w p c n)) ∨
        ((∀ c, ¬ ReportTenant w p t I c) ∧ resp = [])) := by
  unfold Mgr.scopesWithRoles at h
  have hl := Mgr.lists_principal inv (o := o) (site := site ++ [.int 0]) (p := p) (t := t) (n := n)
  simp only at h
  split at h
  · rename_i h0
    have hno : ¬ HasRow w p t := fun ⟨d, hd⟩ => by
      have := List.length_pos_of_mem ((hl.2 d).2 hd); omega
    split at h
    · rename_i ps
      obtain ⟨⟨I, w1⟩, h1, h2⟩ := Out.map_eq_ok.1 h
      obtain ⟨i1, s1, -⟩ := Mgr.implicitTenants_inv inv h1
      cases h2
      refine ⟨I, .inr ⟨ps, rfl, h1⟩, ?_⟩
      have hst : ∀ d, Stored w1 d ↔ Stored w d := fun d => by rw [s1]; rfl
      have hhr : ∀ c, HasRow w1 (.str ps) c ↔ HasRow w (.str ps) c := fun c => by simp only [HasRow, hst]
      have hrp : ∀ c, Reported w1 (.str ps) c n = Reported w (.str ps) c n := by
        intro c; funext s r; simp only [Reported, ScopeEntry, hst]
      simp only
      rcases Mgr.otherTenant_spec i1 (o := o) (site := site ++ [.int 2]) (p := .str ps) (t := t) (n := n) (i := 0)
        (l := o.ord (site ++ [.int 3]) _ I) (cur := t) with ⟨x, hx, hne, hr, h3, h4⟩ | ⟨h2, h3, h4⟩
      · refine .inl ⟨.str x, .inr ⟨hno, (hhr _).1 hr, hne, x, Ord.mem_ord.1 hx, rfl⟩, ?_⟩
        rw [h3, ← hrp]
        exact Mgr.scopeRoles_spec i1 h4
      · refine .inr ⟨?_, ?_⟩
        · rintro c (⟨hr, -⟩ | ⟨-, hr, hne, x, hx, rfl⟩)
          · exact hno hr
          · exact h2 x (Ord.mem_ord.2 hx) hne ((hhr _).2 hr)
        · have hnc : ¬ HasRow w1 (.str ps) (w1.otherTenant o (site ++ [.int 2]) (.str ps) t n 0
              (o.ord (site ++ [.int 3]) _ I) t).1 := by
            rcases h4 with h4 | ⟨x, hx, hne, h4⟩
            · rw [h4, hhr]; exact hno
            · rw [h4]; exact h2 x hx hne
          have := Mgr.scopeRoles_spec i1 (o := o) (site := site ++ [.int 4]) (p := .str ps) (n := n)
            (tps := []) (c := (w1.otherTenant o (site ++ [.int 2]) (.str ps) t n 0 (o.ord (site ++ [.int 3]) _ I) t).1)
            (fun d => ⟨fun hd => (by cases hd), fun hd => absurd ⟨d, hd⟩ hnc⟩)
          rw [h3]
          refine List.eq_nil_iff_forall_not_mem.2 fun e he => ?_
          obtain ⟨r, hr⟩ := (this.2.1 e.1).1 ⟨e.2, he⟩
          rcases hr with ⟨_, a, _, _, h5, h6, h7, _⟩ | ⟨a, h5, h6, h7, _⟩ <;> exact hnc ⟨a, h5, h6, h7⟩
    · cases h
  · rename_i h0
    cases h
    obtain ⟨d, hd⟩ := List.exists_mem_of_length_pos (Nat.pos_of_ne_zero h0)
    have hr : HasRow w p t := ⟨d, (hl.2 d).1 hd⟩
    exact ⟨[], .inl ⟨hr, rfl⟩, .inl ⟨t, .inl ⟨hr, rfl⟩, Mgr.scopeRoles_spec inv hl.2⟩⟩

/-- The stronger claim: every reported scope is a scope of the requested tenant that is not tied to another
principal, and every reported role is a role. -/
def C64_full : Prop := ∀ (w w' : Mgr), w.Inv → ∀ (o : Ord) (fuel : Nat) (site : List Val) (p t n : Val)
  (resp : List (Val × List Val)), w.scopesWithRoles o fuel site p t n = .ok (resp, w') → ∀ s rs, (s, rs) ∈ resp →
  (∃ e, Stored w e ∧ e.tenant = t ∧ e.scope = s ∧ (e.principal = .nil ∨ e.principal = p)) ∧ .nil ∉ rs

/-- Principal p has a role in tenant a; scope s of tenant a is given to principal q only. -/
def exReport : List MOp := [
  .newTenant (str "a"), .addTenant 0, .newTenant (str "b"), .addTenant 1,
  .addPrincipal (str "p") 0, .addPrincipal (str "q") 1, .addScope (str "s") 0,
  .role (.newRole (str "r")), .addRole 0,
  .tAddPrincipalWithRole 0 (str "p") (str "r") false,
  .tAddScopeToPrincipal 0 (str "q") (str "s") false]

/-- C64: q's scope is reported for p; q's own report pairs it with the nil role; p's report for tenant b, where p has
no row, is about tenant a. -/
theorem C64_counterexample : ∃ w, MOp.run {} exReport = .ok w ∧
    ((w.scopesWithRoles .fwd 9 [] (.str (str "p")) (.str (str "a")) .nil).map (·.1) =
      .ok [(.str (str "s"), [.str (str "r")])] ∧
     (w.scopesWithRoles .fwd 9 [] (.str (str "q")) (.str (str "a")) .nil).map (·.1) = .ok [(.str (str "s"), [.nil])] ∧
     (w.scopesWithRoles .fwd 9 [] (.str (str "p")) (.str (str "b")) .nil).map (·.1) =
      .ok [(.str (str "s"), [.str (str "r")])] ∧
     (∀ e ∈ survivors (rowKey dataKeys) w.log, e.scope = .str (str "s") → e.principal = .str (str "q"))) :=
  Out.chk_ok (by decide +kernel)

theorem C64_full_false : ¬ C64_full := by
  intro hf
  obtain ⟨w, hw, h1, -, -, h2⟩ := C64_counterexample
  obtain ⟨⟨resp, w'⟩, h, he⟩ := Out.map_eq_ok.1 h1
  simp only at he
  obtain ⟨⟨e, e1, -, e3, e4⟩, -⟩ := hf w w' (MOp.reachable_inv hw) _ _ _ _ _ _ resp h _ _ (he ▸ List.mem_singleton.2 rfl)
  have := h2 e e1 e3
  rw [this] at e4
  rcases e4 with e4 | e4
  · cases e4
  · exact absurd e4 (by decide)

/-- C64, the stronger claim, if the principal has a row in the requested tenant, no scope row of that tenant is tied
to another principal, and the principal's rows there all name a role. Missing: everything else, where it is false. -/
theorem C64_scopes_partial {w w' : Mgr} (inv : w.Inv) {o : Ord} {fuel : Nat} {site : List Val} {p t n : Val}
    {resp : List (Val × List Val)} (h : w.scopesWithRoles o fuel site p t n = .ok (resp, w'))
    (h1 : HasRow w p t)
    (h2 : ∀ e, Stored w e → e.tenant = t → e.scope ≠ .nil → e.principal = .nil ∨ e.principal = p)
    (h3 : ∀ a, Stored w a → a.tenant = t → a.principal = p → a.role ≠ .nil) :
    ∀ s rs, (s, rs) ∈ resp →
      (∃ e, Stored w e ∧ e.tenant = t ∧ e.scope = s ∧ (e.principal = .nil ∨ e.principal = p)) ∧ .nil ∉ rs := by
  intro s rs hm
  obtain ⟨I, -, ⟨c, hc, hr⟩ | ⟨-, rfl⟩⟩ := C64_report inv h
  · rcases hc with ⟨-, rfl⟩ | ⟨hn, -⟩
    · refine ⟨?_, fun hnil => ?_⟩
      · obtain ⟨r, hr⟩ := (hr.2.1 s).1 ⟨rs, hm⟩
        rcases hr with ⟨e, a, ⟨e1, e2, e3, -⟩, rfl, -⟩ | ⟨a, e1, e2, e3, rfl, -⟩
        · exact ⟨e, e1, e2.1, rfl, h2 e e1 e2.1 e3⟩
        · exact ⟨a, e1, e3.1, rfl, .inr e2.1⟩
      · rcases (hr.2.2 s rs hm .nil).1 hnil with ⟨e, a, -, -, e1, e2, e3, e4⟩ | ⟨a, -, -, -, -, -, -, e5⟩
        · exact h3 a e1 e3.1 e2.1 e4
        · exact e5 rfl
    · exact absurd h1 hn
  · cases hm

/-- C64: the hypotheses hold for p before q gets the scope, with the scope given to the tenant instead. -/
example : ∃ w, MOp.run {} (exReport.take 10 ++ [.tAddScope 0 (str "s")]) = .ok w ∧
    ((∃ a ∈ survivors (rowKey dataKeys) w.log, a.principal = .str (str "p") ∧ a.tenant = .str (str "a")) ∧
     (∀ e ∈ survivors (rowKey dataKeys) w.log, e.scope ≠ .nil → e.principal = .nil) ∧
     (∀ e ∈ survivors (rowKey dataKeys) w.log, e.principal = .str (str "p") → e.role ≠ .nil) ∧
     (w.scopesWithRoles .fwd 9 [] (.str (str "p")) (.str (str "a")) .nil).map (·.1) =
      .ok [(.str (str "s"), [.str (str "r")])]) :=
  Out.chk_ok (by decide +kernel)

end Verif
