import Verif.Lemmas.AuthDuring
import Verif.Lemmas.AuthAlone

/-!
# Decisions of the root package made while other goroutines change things (C117)
-/

namespace Verif
namespace AD
open Spec
variable {C : GoMap Str (List Str)} {S : Str → Str → Prop} {w v u : Mgr}

/-! ## The calls that change things -/

/-- The calls made of many steps. -/
def Many : MOp → Prop
  | .authorize .. => True
  | .implicitTenants .. => True
  | .tenantChildren .. => True
  | _ => False

theorem text_setDefault {c : Nat} {n : Str} (inv : w.Inv) (h : w.tSetDefaultNamespace c n = .ok v) : Mgr.TExt w v ∧ v.pcache = w.pcache := by
  obtain ⟨t, ht, _, h⟩ := Mgr.withTenant_ok h
  split at h
  · cases h
    exact ⟨(inv.setT (t' := { t with defNs := some n }) ht rfl id (fun _ h => h) (inv.descWF t (List.mem_of_getElem? ht)) (inv.desc t (List.mem_of_getElem? ht))).2, rfl⟩
  · cases h; exact ⟨.of_eq rfl, rfl⟩

theorem text_addData {d : Data} (h : w.addData d = .ok v) : Mgr.TExt w v ∧ v.pcache = w.pcache := by
  obtain ⟨t, _, rfl⟩ := Out.map_eq_ok.1 h
  exact ⟨.of_eq rfl, rfl⟩

theorem text_viaTenant {c : Nat} {row : TenantObj → Data} (h : w.withTenant c (fun t => w.addData (row t)) = .ok v) :
    Mgr.TExt w v ∧ v.pcache = w.pcache := by
  obtain ⟨t, _, _, h⟩ := Mgr.withTenant_ok h
  exact text_addData h

theorem link_inv {c d : Nat} (inv : w.Inv) (h : linkOnly w c d = .ok v) : v.Inv ∧ Mgr.TExt w v ∧ ∃ ts, v = { w with tobjs := ts } := by
  unfold linkOnly at h
  split at h
  · rename_i ct dt hc hd
    cases h
    split
    · exact ⟨inv, .of_eq rfl, w.tobjs, rfl⟩
    · rename_i hn
      have hwf := inv.descWF ct (List.mem_of_getElem? hc)
      have hn : ct.desc.get dt.id = none := by simpa using hn
      obtain ⟨a, b⟩ := inv.setT (t' := { ct with desc := ct.desc.set dt.id d }) hc rfl id (by
          intro e he
          refine (GoMap.mem_set_iff hwf).2 (.inr ⟨?_, he⟩)
          intro e'
          have := (GoMap.mem_iff_get hwf (k := e.1) (v := e.2)).1 he
          rw [e', hn] at this; cases this) (GoMap.wf_set hwf _ _) (by
          intro e he
          rcases (GoMap.mem_set_iff hwf).1 he with rfl | ⟨_, he⟩
          · exact ⟨dt, hd, rfl⟩
          · exact inv.desc ct (List.mem_of_getElem? hc) e he)
      exact ⟨a, b, _, rfl⟩
  · cases h

theorem text_addDescendant {c : Nat} {ds : List Nat} (inv : w.Inv) (h : w.tAddDescendant c ds = .ok v) : Mgr.TExt w v ∧ v.pcache = w.pcache := by
  induction ds generalizing w with
  | nil => cases h; exact ⟨.of_eq rfl, rfl⟩
  | cons d ds ih =>
    rw [Mgr.tAddDescendant] at h
    split at h
    · rename_i ct dt hc hd
      have hl : linkOnly w c d = .ok (if (ct.desc.get dt.id).isSome then w
        else { w with tobjs := w.tobjs.set c { ct with desc := ct.desc.set dt.id d } }) := by rw [linkOnly, hc, hd]
      simp only at h
      generalize (if (ct.desc.get dt.id).isSome then w
        else { w with tobjs := w.tobjs.set c { ct with desc := ct.desc.set dt.id d } }) = w1 at hl h
      obtain ⟨i1, t1, _, e1⟩ := link_inv inv hl
      have p1 : w1.pcache = w.pcache := by rw [e1]
      split at h
      · obtain ⟨t2, p2⟩ := ih i1 h
        exact ⟨t1.trans t2, p2.trans p1⟩
      · rw [Out.bind_eq_ok] at h
        obtain ⟨w2, h2, h⟩ := h
        rw [Out.bind_eq_ok] at h
        obtain ⟨w3, h3, h⟩ := h
        have i2 := MOp.apply_inv (op := .tAddNamespace d _) i1 h2
        obtain ⟨t2, p2⟩ := text_viaTenant h2
        obtain ⟨t3, p3⟩ := text_setDefault i2 h3
        obtain ⟨t4, p4⟩ := ih (MOp.apply_inv (op := .tSetDefaultNamespace d _) i2 h3) h
        exact ⟨((t1.trans t2).trans t3).trans t4, p4.trans (p3.trans (p2.trans p1))⟩
    · cases h

theorem text_inserted {rows : List Data} (h : Inserted w v rows) : Mgr.TExt w v ∧ v.pcache = w.pcache :=
  ⟨.of_eq (by rw [h]), by rw [h]⟩

/-- Links of tenants are kept by every call; lists are cached by `Authorize` and `GetImplicitTenants` only. -/
theorem text_apply {op : MOp} (inv : w.Inv) (hm : ¬ Many op) (h : op.apply w = .ok v) : Mgr.TExt w v ∧ v.pcache = w.pcache := by
  cases op with
  | role op => obtain ⟨h1, h2, rfl⟩ := Out.map_eq_ok.1 h; exact ⟨.of_eq rfl, rfl⟩
  | newTenant id =>
    cases h
    refine ⟨fun a t ht => ⟨t, ?_, rfl, fun h => h, fun _ h => h⟩, rfl⟩
    rw [Mgr.newTenant, get_append_lt (RHeap.lt_of_get ht)]; exact ht
  | addTenant a =>
    obtain ⟨⟨x, w1⟩, h2, rfl⟩ := Out.map_eq_ok.1 h
    unfold Mgr.addTenant at h2
    split at h2
    · cases h2
    · rename_i t ht
      cases h2
      obtain ⟨_, hx⟩ := inv.setT (t' := { t with managed := true }) ht rfl (fun _ => rfl) (fun _ h => h)
        (inv.descWF t (List.mem_of_getElem? ht)) (inv.desc t (List.mem_of_getElem? ht))
      exact ⟨hx, rfl⟩
  | addNamespace id obj => cases h; exact ⟨.of_eq rfl, rfl⟩
  | addScope id obj => cases h; exact ⟨.of_eq rfl, rfl⟩
  | addPrincipal id obj => cases h; exact ⟨.of_eq rfl, rfl⟩
  | addRole r =>
    obtain ⟨⟨x, w1⟩, h2, rfl⟩ := Out.map_eq_ok.1 h
    unfold Mgr.addRole at h2
    split at h2
    · cases h2
    · cases h2; exact ⟨.of_eq rfl, rfl⟩
  | addAttribute a obj => cases h; exact ⟨.of_eq rfl, rfl⟩
  | addAttributeGroup ga =>
    obtain ⟨⟨x, w1⟩, h2, rfl⟩ := Out.map_eq_ok.1 h
    unfold Mgr.addAttributeGroup at h2
    split at h2
    · cases h2
    · cases h2; exact ⟨.of_eq rfl, rfl⟩
  | addData d => exact text_addData h
  | tAddNamespace c n => exact text_viaTenant h
  | tAddScopesToNamespace c n s => exact text_viaTenant h
  | tSetDefaultNamespace c n => exact text_setDefault inv h
  | tAddPrincipalInNamespace c p n r => exact text_viaTenant h
  | tAddRole c r => exact text_viaTenant h
  | tAddScope c s => exact text_viaTenant h
  | tAddDescendant c ds => exact text_addDescendant inv h
  | tAddPrincipalWithRole c p r m =>
    obtain ⟨⟨x, w1⟩, h2, rfl⟩ := Out.map_eq_ok.1 h
    obtain ⟨rows, i, _⟩ := withRole_rows inv h2
    exact text_inserted i
  | tAddPrincipal c p m rs =>
    obtain ⟨⟨x, w1⟩, h2, rfl⟩ := Out.map_eq_ok.1 h
    obtain ⟨rows, i, _⟩ := addPrincipal_rows inv h2
    exact text_inserted i
  | tAddScopeToPrincipal c p s m =>
    obtain ⟨⟨x, w1⟩, h2, rfl⟩ := Out.map_eq_ok.1 h
    obtain ⟨rows, i, _⟩ := toPrincipal_rows inv h2
    exact text_inserted i
  | tAssignScopes c p m ss =>
    obtain ⟨⟨x, w1⟩, h2, rfl⟩ := Out.map_eq_ok.1 h
    obtain ⟨rows, i, _⟩ := assignScopes_rows inv h2
    exact text_inserted i
  | addPermissionsToRole r g as => obtain ⟨⟨e, h1⟩, h2, rfl⟩ := Out.map_eq_ok.1 h; exact ⟨.of_eq rfl, rfl⟩
  | tenantChildren => exact absurd trivial hm
  | implicitTenants => exact absurd trivial hm
  | authorize => exact absurd trivial hm

/-- A change that replaces no row. -/
theorem later_apply {op : MOp} (g : Good C S w) (hm : ¬ Many op) (h : op.apply w = .ok v) (hrows : ∀ d, Stored w d → Stored v d) :
    Later C S w v := by
  obtain ⟨t, hp⟩ := text_apply g.inv hm h
  have k := Keeps.apply g.inv h
  obtain ⟨l, hl⟩ := k.log
  have hm : ∀ {p x : Str}, Member w p x → Member v p x := fun ⟨row, h1, h2⟩ => ⟨row, hrows row h1, h2⟩
  refine ⟨⟨MOp.apply_inv g.inv h, fun p J hJ => k.cache p J (g.cached p J hJ), fun p x hx => ⟨hm (g.own p x hx).1, ?_⟩⟩, ?_,
    k.heap, t, hrows, fun d hd => by rw [hl]; exact List.mem_append_left _ hd⟩
  · rw [hp]; exact (g.own p x hx).2
  · exact fun kd id a ha => C22_never_forgets (ops := [op]) g.inv (by rw [MOp.run, h]; rfl) ha

theorem later_link {c d : Nat} (g : Good C S w) (h : linkOnly w c d = .ok v) : Later C S w v := by
  obtain ⟨i, t, ts, e⟩ := link_inv g.inv h
  subst e
  exact ⟨⟨i, g.cached, g.own⟩, fun k => by cases k <;> exact fun _ _ h => h, .refl _, t, fun _ h => h, fun _ h => h⟩

/-! ## All goroutines -/

/-- No step of the run replaces a stored row by another one with the same values in order. -/
def NoLoss (c : Conf) : List Nat → Prop
  | [] => True
  | i :: is => ∀ c', c.step i = some c' → (∀ d, Stored c.w d → Stored c'.w d) ∧ NoLoss c' is

/-- What is shown of the answer of a call that began in `w` and returned in `v`. -/
def AnsOK (C : GoMap Str (List Str)) (S : Str → Str → Prop) (w : Mgr) : Call → Option Bool → Mgr → Prop
  | .call (.authorize _ _ _ p opts), a, v => ∃ b, a = some b ∧
    (b = true → ∃ I, AC.Allowed v p (requestOf opts) I ∧ (∀ x ∈ I, Entitled v p x) ∧ ∀ J, C.get p = some J → I = J) ∧
    (b = false → ∀ K, (C.get p = some K ∨ ∀ x ∈ K, S p x) → ¬ AC.Allowed w p (requestOf opts) K)
  | _, _, _ => True

/-- A change in one step, which only adds if it replaces no row. -/
def Adds (C : GoMap Str (List Str)) (S : Str → Str → Prop) (f : Mgr → Out Mgr) : Prop :=
  ∀ w v : Mgr, Good C S w → f w = .ok v → (∀ d, Stored w d → Stored v d) → Later C S w v

/-- The call a goroutine is in. -/
def Alive (C : GoMap Str (List Str)) (S : Str → Str → Prop) (w : Mgr) (e : Call × List Mgr × Prog (Option Bool)) : Prop :=
  ∃ w1, e.2.1.getLast? = some w1 ∧ e.2.1.head? = some w ∧ (∀ v ∈ e.2.1, Good C S v) ∧
    (wp C S (AnsOK C S w1 e.1) e.2.2 w ∨ ((∀ a v, AnsOK C S w1 e.1 a v) ∧ ∃ f, e.2.2 = once f ∧ Adds C S f))

/-- A call that returned. -/
def DoneOK (C : GoMap Str (List Str)) (S : Str → Str → Prop) (d : Done) : Prop :=
  ∃ w1 w2, d.seen.getLast? = some w1 ∧ d.seen.head? = some w2 ∧ (∀ v ∈ d.seen, Good C S v) ∧ AnsOK C S w1 d.call d.ans w2

structure Sound (C : GoMap Str (List Str)) (S : Str → Str → Prop) (c : Conf) : Prop where
  good : Good C S c.w
  cur : ∀ t ∈ c.ts, ∀ e, t.cur = some e → Alive C S c.w e
  out : ∀ t ∈ c.ts, ∀ d ∈ t.out, DoneOK C S d

theorem ansOK_of_not_many {op : MOp} (hm : ¬ Many op) (w v : Mgr) (a : Option Bool) : AnsOK C S w (.call op) a v := by
  cases op <;> first | trivial | exact absurd trivial hm

/-- A call that begins. -/
theorem alive_begin (g : Good C S w) (k : Call) : Alive C S w (k, [w], k.prog) := by
  refine ⟨w, rfl, rfl, by simpa using g, ?_⟩
  cases k with
  | link c d => exact .inr ⟨fun _ _ => trivial, _, rfl, fun u v gu h _ => later_link gu h⟩
  | call op =>
    by_cases hm : Many op
    · refine .inl ?_
      cases op <;> first | exact absurd hm id | skip
      · rename_i o fuel site id
        exact wp.bind g tenantChildrenP_wp fun _ _ _ _ => wp.ret fun _ _ => trivial
      · rename_i o fuel site p
        exact wp.bind g implicitTenantsP_wp fun _ _ _ _ => wp.ret fun _ _ => trivial
      · rename_i o fuel site p opts
        exact wp.bind g (authorizeP_wp g) fun b v l ⟨b1, b2⟩ => wp.ret fun z lz => ⟨b, rfl, fun hb => by
          obtain ⟨I, h1, h2, h3⟩ := b1 hb
          obtain ⟨⟨x, hx⟩, a2, a3, c, a4, a5⟩ := h1
          exact ⟨I, ⟨⟨x, GoMap.get_some_mem (lz.reg .principal p x ((GoMap.mem_iff_get l.good.inv.regP).1 hx))⟩, a2,
            lz.resources l.good a3, c, a4, lz.decides l.good a5⟩, fun x hx => (h2 x hx).later lz, h3⟩, b2⟩
    · refine .inr ⟨fun a v => ansOK_of_not_many hm w v a, fun w => op.apply w, ?_, fun u v gu h hr => later_apply gu hm h hr⟩
      cases op <;> first | rfl | exact absurd trivial hm

theorem Alive.note (h : Later C S w v) {e : Call × List Mgr × Prog (Option Bool)} (a : Alive C S w e) : Alive C S v (e.1, v :: e.2.1, e.2.2) := by
  obtain ⟨w1, h1, h2, g1, h3⟩ := a
  refine ⟨w1, ?_, rfl, (by simpa using ⟨h.good, g1⟩), h3.imp (fun k => k.later h) id⟩
  cases hs : e.2.1 with
  | nil => rw [hs] at h1; cases h1
  | cons x xs => rw [hs] at h1; rw [List.getLast?_cons_cons]; exact h1

theorem note_cur {t : Thread} {e : Call × List Mgr × Prog (Option Bool)} (h : (t.note v).cur = some e) :
    ∃ e', t.cur = some e' ∧ e = (e'.1, v :: e'.2.1, e'.2.2) := by
  unfold Thread.note at h
  split at h
  · rename_i hn; rw [hn] at h; cases h
  · rename_i k seen q hs; cases h; exact ⟨_, hs, rfl⟩

theorem note_out {t : Thread} : (t.note v).out = t.out := by
  unfold Thread.note; split <;> rfl

theorem Sound.step {c c' : Conf} {i : Nat} (s : Sound C S c) (h : c.step i = some c') (hr : ∀ d, Stored c.w d → Stored c'.w d) : Sound C S c' := by
  unfold Conf.step at h
  split at h
  · cases h; exact s
  · rename_i t ht
    have hmem := List.mem_of_getElem? ht
    split at h
    · split at h
      · cases h; exact s
      · rename_i k rest _
        cases h
        refine ⟨s.good, fun t' ht' e he => ?_, fun t' ht' d hd => ?_⟩
        · rcases List.mem_or_eq_of_mem_set ht' with h | h
          · exact s.cur t' h e he
          · subst h; cases he; exact alive_begin s.good k
        · rcases List.mem_or_eq_of_mem_set ht' with h | h
          · exact s.out t' h d hd
          · subst h; exact s.out t hmem d hd
    · rename_i k seen a hcur
      cases h
      refine ⟨s.good, fun t' ht' e he => ?_, fun t' ht' d hd => ?_⟩
      · rcases List.mem_or_eq_of_mem_set ht' with h | h
        · exact s.cur t' h e he
        · subst h; cases he
      · rcases List.mem_or_eq_of_mem_set ht' with h | h
        · exact s.out t' h d hd
        · subst h
          rcases List.mem_append.1 hd with hd | hd
          · exact s.out t hmem d hd
          · rw [List.mem_singleton.1 hd]
            obtain ⟨w1, h1, h2, g1, h3⟩ := s.cur t hmem _ hcur
            refine ⟨w1, c.w, h1, h2, g1, ?_⟩
            rcases h3 with h3 | ⟨h3, _⟩
            · exact h3 c.w (.refl s.good)
            · exact h3 a c.w
    · cases h
    · cases h
    · rename_i k seen f n hcur
      cases h
      simp only at hr
      obtain ⟨w1, h1, h2, g1, h3⟩ := s.cur t hmem _ hcur
      have key : Later C S c.w (f c.w) ∧ Alive C S (f c.w) (k, f c.w :: seen, n c.w) := by
        have hl : (f c.w :: seen).getLast? = some w1 := by
          cases hs : seen with
          | nil => rw [hs] at h1; cases h1
          | cons x xs => rw [hs] at h1; rw [List.getLast?_cons_cons]; exact h1
        rcases h3 with h3 | ⟨h3, f', h4, h5⟩
        · obtain ⟨l, q⟩ := h3 c.w (.refl s.good)
          exact ⟨l, w1, hl, rfl, by simpa using ⟨l.good, g1⟩, .inl q⟩
        · simp only [once, Prog.step.injEq] at h4
          obtain ⟨rfl, rfl⟩ := h4
          simp only at hr hl ⊢
          cases hf : f' c.w with
          | ok w' =>
            rw [hf] at hr
            rw [hf] at hl
            have l := h5 c.w w' s.good hf hr
            exact ⟨l, w1, hl, rfl, by simpa using ⟨l.good, g1⟩, .inl fun v _ => h3 none v⟩
          | panic => rw [hf] at hl; exact ⟨.refl s.good, w1, hl, rfl, by simpa using ⟨s.good, g1⟩, .inl trivial⟩
          | diverge => rw [hf] at hl; exact ⟨.refl s.good, w1, hl, rfl, by simpa using ⟨s.good, g1⟩, .inl trivial⟩
      obtain ⟨l, al⟩ := key
      refine ⟨l.good, fun t' ht' e he => ?_, fun t' ht' d hd => ?_⟩
      · obtain ⟨t0, ht0, rfl⟩ := List.mem_map.1 ht'
        obtain ⟨e', he', rfl⟩ := note_cur he
        rcases List.mem_or_eq_of_mem_set ht0 with h | h
        · exact (s.cur t0 h e' he').note l
        · subst h; cases he'; exact al
      · obtain ⟨t0, ht0, rfl⟩ := List.mem_map.1 ht'
        rw [note_out] at hd
        rcases List.mem_or_eq_of_mem_set ht0 with h | h
        · exact s.out t0 h d hd
        · subst h; exact s.out t hmem d hd

theorem Sound.run {c c' : Conf} {is : List Nat} (s : Sound C S c) (h : c.run is = some c') (hr : NoLoss c is) : Sound C S c' := by
  induction is generalizing c with
  | nil => cases h; exact s
  | cons i is ih =>
    rw [Conf.run, Option.bind_eq_some_iff] at h
    obtain ⟨c1, h1, h2⟩ := h
    obtain ⟨r1, r2⟩ := hr c1 h1
    exact ih (s.step h1 r1) h2 r2

/-- `t` is a tenant in which `p` was given something, and no list cached for `p` lacks it. -/
def Own (w : Mgr) (p t : Str) : Prop := Member w p t ∧ ∀ J, w.pcache.get p = some J → t ∈ J

theorem Sound.start (inv : w.Inv) (calls : List (List Call)) : Sound w.pcache (Own w) (Conf.start w calls) := by
  refine ⟨⟨inv, fun _ _ h => h, fun _ _ h => h⟩, fun t ht e he => ?_, fun t ht d hd => ?_⟩
  · obtain ⟨l, _, rfl⟩ := List.mem_map.1 ht; cases he
  · obtain ⟨l, _, rfl⟩ := List.mem_map.1 ht; cases hd

/-! ## C117 -/

/-- C117 as intended: whatever the other goroutines do meanwhile, `Authorize` answers as if it were made at one moment
between its beginning and its return. -/
def C117_full : Prop := ∀ (w0 : Mgr) (calls : List (List Call)) (sched : List Nat) (c : Conf) (d : Done) (o : Ord) (fuel : Nat)
  (site : List Val) (p : Str) (opts : List Opt) (b : Bool), w0.Inv → (Conf.start w0 calls).run sched = some c → d ∈ c.done →
  d.call = .call (.authorize o fuel site p opts) → d.ans = some b →
  ∃ v ∈ d.seen, ∃ (o' : Ord) (fuel' : Nat) (site' : List Val) (w' : Mgr), v.authorize o' fuel' site' p opts = .ok (b, w')

/-- C117. However many goroutines call whatever they like, in every interleaving in which no stored row is replaced by another
with the same values in order: what `Authorize` grants is allowed, at its return, by tenants the principal is entitled to then; what it
refuses was not allowed, at its beginning, in the tenant of the request and those in which the principal had something when the
goroutines began.  Missing: rows that are replaced (see the counterexample). -/
theorem C117_between_partial {w0 : Mgr} (inv : w0.Inv) {calls : List (List Call)} {sched : List Nat} {c : Conf}
    (h : (Conf.start w0 calls).run sched = some c) (hl : NoLoss (Conf.start w0 calls) sched) {d : Done} (hd : d ∈ c.done)
    {o : Ord} {fuel : Nat} {site : List Val} {p : Str} {opts : List Opt} (hk : d.call = .call (.authorize o fuel site p opts)) :
    ∃ b first last, d.ans = some b ∧ d.seen.getLast? = some first ∧ d.seen.head? = some last ∧
      (b = true → ∃ I, AC.Allowed last p (requestOf opts) I ∧ ∀ x ∈ I, Entitled last p x) ∧
      (b = false → ∀ K, (∀ x ∈ K, Own w0 p x) → ¬ AC.Allowed first p (requestOf opts) K) := by
  obtain ⟨t, ht, hd⟩ := List.mem_flatMap.1 hd
  obtain ⟨w1, w2, h1, h2, _, h3⟩ := ((Sound.start inv calls).run h hl).out t ht d hd
  rw [hk] at h3
  obtain ⟨b, e, h4, h5⟩ := h3
  refine ⟨b, w1, w2, e, h1, h2, fun hb => ?_, fun hb K hK => h5 hb K (.inr hK)⟩
  obtain ⟨I, i1, i2, _⟩ := h4 hb
  exact ⟨I, i1, i2⟩

/-- What a call of its own does when the list of the principal is cached. -/
theorem authorize_cached (inv : w.Inv) {o : Ord} {fuel : Nat} {site : List Val} {p : Str} {opts : List Opt} {b : Bool} {J : List Str} {w' : Mgr}
    (hJ : w.pcache.get p = some J) (h : w.authorize o fuel site p opts = .ok (b, w')) : b = true ↔ AC.Allowed w p (requestOf opts) J :=
  AC.authorize_granted inv (w1 := w) (by rw [Mgr.implicitTenants, hJ]) h

/-- C117. If moreover the tenants of the principal were cached when the goroutines began, `Authorize` answers as a call made at one
moment between its beginning and its return answers, in every order that call may walk maps and rows: at its return if it grants, at its
beginning if it refuses. -/
theorem C117_moment_partial {w0 : Mgr} (inv : w0.Inv) {calls : List (List Call)} {sched : List Nat} {c : Conf}
    (h : (Conf.start w0 calls).run sched = some c) (hl : NoLoss (Conf.start w0 calls) sched) {d : Done} (hd : d ∈ c.done)
    {o : Ord} {fuel : Nat} {site : List Val} {p : Str} {opts : List Opt} (hk : d.call = .call (.authorize o fuel site p opts))
    {J : List Str} (hJ : w0.pcache.get p = some J) :
    ∃ b, d.ans = some b ∧ ∃ v ∈ d.seen, (b = true ↔ AC.Allowed v p (requestOf opts) J) ∧
      ∀ (o' : Ord) (fuel' : Nat) (site' : List Val) (b' : Bool) (w' : Mgr),
        v.authorize o' fuel' site' p opts = .ok (b', w') → b' = b := by
  obtain ⟨t, ht, hd⟩ := List.mem_flatMap.1 hd
  obtain ⟨w1, w2, h1, h2, g, h3⟩ := ((Sound.start inv calls).run h hl).out t ht d hd
  rw [hk] at h3
  obtain ⟨b, e, h4, h5⟩ := h3
  refine ⟨b, e, ?_⟩
  have : ∃ v ∈ d.seen, Good w0.pcache (Own w0) v ∧ (b = true ↔ AC.Allowed v p (requestOf opts) J) := by
    cases b with
    | true =>
      obtain ⟨I, i1, _, i3⟩ := h4 rfl
      rw [i3 J hJ] at i1
      exact ⟨w2, List.mem_of_head? h2, g _ (List.mem_of_head? h2), by simp [i1]⟩
    | false => exact ⟨w1, List.mem_of_getLast? h1, g _ (List.mem_of_getLast? h1), by simp [h5 rfl J (.inl hJ)]⟩
  obtain ⟨v, hv, g, hb⟩ := this
  refine ⟨v, hv, hb, fun o' fuel' site' b' w' h' => ?_⟩
  rw [Bool.eq_iff_iff, hb, authorize_cached g.inv (g.cached p J hJ) h']

/-- `NoLoss`, computed. -/
def noLossB (c : Conf) : List Nat → Bool
  | [] => true
  | i :: is =>
    match c.step i with
    | none => true
    | some c' => (survivors (rowKey dataKeys) c.w.log).all (fun d => decide (d ∈ survivors (rowKey dataKeys) c'.w.log)) && noLossB c' is

theorem noLoss_of {c : Conf} {is : List Nat} (h : noLossB c is = true) : NoLoss c is := by
  induction is generalizing c with
  | nil => trivial
  | cons i is ih =>
    intro c' hc
    rw [noLossB, hc] at h
    simp only [Bool.and_eq_true, List.all_eq_true, decide_eq_true_eq] at h
    exact ⟨h.1, ih h.2⟩

def exStart : List MOp := [.addPrincipal (str "p") 0, .newTenant (str "a"), .addTenant 0]

def exOpts : List Opt := [.tenant (.str (str "a")), .namespace_ (.str (str "n"))]

def exAsk : Call := .call (.authorize .fwd 9 [] (str "p") exOpts)

/-- The call asks whether "p" may do what `opts` ask for. -/
def asks (opts : List Opt) : Call → Bool
  | .call (.authorize _ _ _ p opts') => decide (p = str "p" ∧ opts' = opts)
  | _ => false

theorem asks_eq {opts : List Opt} {k : Call} (h : asks opts k = true) : ∃ o fuel site, k = .call (.authorize o fuel site (str "p") opts) := by
  unfold asks at h
  split at h
  · rename_i o fuel site p opts'
    obtain ⟨rfl, rfl⟩ := of_decide_eq_true h
    exact ⟨o, fuel, site, rfl⟩
  · cases h

/-- After the given calls the goroutines make theirs, and some call asking for `opts` is answered by `b`, its moments all being `test`. -/
def Answered (ops : List MOp) (calls : List (List Call)) (sched : List Nat) (opts : List Opt) (b : Bool) (test : Mgr → Bool) (w : Mgr) : Prop :=
  MOp.run {} ops = .ok w ∧ ∃ c d, (Conf.start w calls).run sched = some c ∧ d ∈ c.done ∧ asks opts d.call = true ∧ d.ans = some b ∧
    d.seen.all test = true

/-- The same, computed. -/
def answered (ops : List MOp) (calls : List (List Call)) (sched : List Nat) (opts : List Opt) (b : Bool) (test more : Mgr → Bool) : Bool :=
  match MOp.run {} ops with
  | .ok w =>
    match (Conf.start w calls).run sched with
    | some c => more w && c.done.any fun d => asks opts d.call && decide (d.ans = some b) && d.seen.all test
    | none => false
  | _ => false

theorem answered_of {ops : List MOp} {calls : List (List Call)} {sched : List Nat} {opts : List Opt} {b : Bool} {test more : Mgr → Bool}
    (h : answered ops calls sched opts b test more = true) : ∃ w, Answered ops calls sched opts b test w ∧ more w = true := by
  unfold answered at h
  split at h
  · rename_i w hw
    split at h
    · rename_i c hc
      simp only [Bool.and_eq_true, List.any_eq_true, decide_eq_true_eq] at h
      obtain ⟨h1, d, hd, ⟨h2, h3⟩, h4⟩ := h
      exact ⟨w, ⟨hw, c, d, hc, hd, h2, h3, h4⟩, h1⟩
    · cases h
  · cases h

/-- One goroutine asks for the tenants of "p", one gives "p" something in namespace "n" and then registers "n", one asks for a decision. -/
def exRace : List (List Call) := [[.call (.implicitTenants .fwd 9 [] (str "p"))],
  [.call (.tAddPrincipalInNamespace 0 (str "p") (str "n") (str "r")), .call (.addNamespace (str "n") 0)], [exAsk]]

/-- The first goroutine found no tenants and is about to cache that; the decision finds tenant "a"; the first goroutine caches the empty
list; "n" is registered; the decision goes on. -/
def exRaceSched : List Nat :=
  List.replicate 4 0 ++ List.replicate 3 1 ++ List.replicate 14 2 ++ List.replicate 2 0 ++ List.replicate 3 1 ++ List.replicate 30 2

/-- No moment would grant. -/
def exNever (w : Mgr) : Bool :=
  decide (w.pcache.get (str "p") = some []) || decide ((w.namespaces.get (str "n")).isNone)

/-- C117. It is granted what at no moment is granted: while "n" is not registered the request is not valid, and once it is the list cached
for "p" is empty, for ever.  No row is replaced. -/
theorem C117_counterexample : ∃ w, Answered exStart exRace exRaceSched exOpts true exNever w ∧
    noLossB (Conf.start w exRace) exRaceSched = true := answered_of (more := fun w => noLossB (Conf.start w exRace) exRaceSched) (by decide +kernel)

/-- C117. So the intended property fails. -/
theorem C117_full_false : ¬ C117_full := by
  intro h
  obtain ⟨w, ⟨h1, c, d, h2, h3, h4, h5, h6⟩, h7⟩ := C117_counterexample
  obtain ⟨o, fuel, site, hk⟩ := asks_eq h4
  have inv := MOp.reachable_inv h1
  obtain ⟨v, hv, o', fuel', site', w', h8⟩ := h w exRace exRaceSched c d o fuel site (str "p") exOpts true inv h2 h3 hk h5
  obtain ⟨t, ht, hd⟩ := List.mem_flatMap.1 h3
  obtain ⟨_, _, _, _, g, _⟩ := ((Sound.start inv exRace).run h2 (noLoss_of h7)).out t ht d hd
  have inv := (g v hv).inv
  obtain ⟨_, I, hI, hne, hr, _⟩ := (authorize_exact inv h8).1 rfl
  have test := List.all_eq_true.1 h6 v hv
  simp only [exNever, Bool.or_eq_true, decide_eq_true_eq] at test
  rcases test with test | test
  · exact ((authorize_cached inv test h8).1 rfl).2.1 rfl
  · rcases hr.2.1 with e | ⟨s, x, e, hx⟩
    · cases e
    · cases e
      rw [(GoMap.mem_iff_get inv.regN).1 hx] at test; cases test

/-- "p" is given something in tenant "a" and its tenants are cached. -/
def exCached : List MOp := [.addPrincipal (str "p") 0, .newTenant (str "a"), .addTenant 0, .addNamespace (str "n") 0,
  .tAddPrincipalInNamespace 0 (str "p") (str "m") (str "r"), .implicitTenants .fwd 9 [] (str "p")]

/-- One goroutine gives "p" something in namespace "n", one asks. -/
def exGive : List (List Call) := [[.call (.tAddPrincipalInNamespace 0 (str "p") (str "n") (str "r"))], [exAsk]]

/-- The asking goroutine makes `n` steps before the giving one makes its call. -/
def exGiveSched (n : Nat) : List Nat := List.replicate n 1 ++ List.replicate 3 0 ++ List.replicate 30 1

/-- C117. The hypotheses are met in runs that grant because of a row stored during the call, and in runs that refuse since the row came
too late, though it is there when the call returns. -/
theorem C117_cases : (∃ w, Answered exCached exGive (exGiveSched 8) exOpts true (fun _ => true) w ∧
      (decide (w.pcache.get (str "p") = some [str "a"]) && noLossB (Conf.start w exGive) (exGiveSched 8)) = true) ∧
    ∃ w, Answered exCached exGive (exGiveSched 9) exOpts false (fun _ => true) w ∧
      (decide (w.pcache.get (str "p") = some [str "a"]) && noLossB (Conf.start w exGive) (exGiveSched 9)) = true :=
  ⟨answered_of (more := fun w => decide (w.pcache.get (str "p") = some [str "a"]) && noLossB (Conf.start w exGive) (exGiveSched 8)) (by decide +kernel),
   answered_of (more := fun w => decide (w.pcache.get (str "p") = some [str "a"]) && noLossB (Conf.start w exGive) (exGiveSched 9)) (by decide +kernel)⟩

/-- The tenants of "p" are cached; the only row of "p" comes after one that has the same first value. -/
def exSwapStart : List MOp := [.addPrincipal (str "p") 0, .newTenant (str "a"), .addTenant 0,
  .addData { tenant := .str (str "a"), namespace_ := .str (str "n") },
  .addData { tenant := .str (str "a"), principal := .str (str "p"), role := .str (str "r") }, .implicitTenants .fwd 9 [] (str "p")]

/-- One goroutine adds a row of "p" behind the walk, then replaces the one ahead of it. -/
def exSwap : List (List Call) := [[.call (.addData { tenant := .str (str "a"), namespace_ := .str (str "n"), principal := .str (str "p") }),
    .call (.addData { tenant := .str (str "a"), scope := .str (str "p"), principal := .str (str "r") })],
  [.call (.authorize .fwd 9 [] (str "p") [.tenant (.str (str "a"))])]]

def exSwapSched : List Nat := List.replicate 10 1 ++ List.replicate 6 0 ++ List.replicate 30 1

/-- A call of its own grants. -/
def exAlways (w : Mgr) : Bool :=
  match w.authorize .fwd 9 [] (str "p") [.tenant (.str (str "a"))] with
  | .ok x => x.1
  | _ => false

/-- C117. Nor can rows be replaced: here every moment grants, the list of the principal is cached, and it is refused, for the walk met
neither of the two rows. -/
theorem C117_replaced : ∃ w, Answered exSwapStart exSwap exSwapSched [.tenant (.str (str "a"))] false exAlways w ∧
    (decide (w.pcache.get (str "p") = some [str "a"]) && !noLossB (Conf.start w exSwap) exSwapSched) = true :=
  answered_of (more := fun w => decide (w.pcache.get (str "p") = some [str "a"]) && !noLossB (Conf.start w exSwap) exSwapSched) (by decide +kernel)

/-! ## The steps are those of the sequential description -/

/-- C117. `Authorize` taken step by step without interruption is `Authorize` as described sequentially, whatever its answer or failure, in every
order that does not depend on the values ordered, if the bound on the depth exceeds that of the tree of rows. -/
theorem C117_alone (inv : w.Inv) {o : Ord} (nat : o.Natural) {fuel : Nat} (hh : w.trie.root.height < fuel) (site : List Val) (p : Str)
    (opts : List Opt) : (authorizeP o fuel site p opts).exec w = w.authorize o fuel site p opts := authorizeP_exec inv nat hh

/-- The state `exSwapStart` leads to, in which the tree of rows has depth 3. -/
example : ((MOp.run {} exSwapStart).map fun w => decide (w.trie.root.height = 3)) = .ok true := by decide +kernel

end AD
end Verif
