import Verif.Coherent
import Verif.Demo

/-!
# C68: coherence

In a system of builders that form a directed acyclic graph, whose code otherwise does what it likes (it looks at and changes the
outside world, fails, panics, changes its dynamic state, creates and drops builders), each artifact in the cache was computed
from exactly the artifacts that are in the cache now.  `MadeNow`, `MadeFrom` and `Written` are in `Coherent.lean`.
-/

open Std

namespace Daab

variable {σ : Sig} {Y : Sys σ} {s : St σ}

/-! ## Specification -/

/-- The code looks at nothing but what it resolves, and gives up with the error when it fails to resolve something. -/
def Prog.derives : Prog σ → Prop
  | .ret _ => True
  | .resolve _ _ k => (∀ e, k (.error e) = .ret (.error e)) ∧ ∀ v, (k (.ok v)).derives
  | _ => False

/-! ## Theorems -/

/-- **C68** Builders form a directed acyclic graph.  After any history, with any doctor, `Debug` and `Clone`
implementations, the artifact of `p` in the cache is what the code of `p` made of the artifacts that are in the cache now, and
the dynamic state of `p` is the one that run left; unless a caller of `get_mut` or `lookup_mut` since wrote another artifact in
its place. -/
theorem C68_coherent {rk : σ.B → Nat} (hrk : Ranked Y rk) (h : Reachable Y s) {p : Promise σ} {v : σ.V}
    (hl : s.live p = true) (hv : Cached s p.id v) : MadeNow Y s p v := by
  obtain ⟨b, hb⟩ := h.inv.art_known hv
  rw [h.inv.heapKnown _ _ _ hb (live_iff.1 hl)] at hb
  exact h.coherent hrk p v hb hv

/-- **C68** Whatever `get(p)` returns is an artifact that then is in the cache, and coherent with all others there. -/
theorem C68_get {rk : σ.B → Nat} (hrk : Ranked Y rk) (h : Reachable Y s) {D : Hooks σ} {n : Nat} {ord : HashOrder}
    {how : Access} {p : Promise σ} {s' : St σ} {x : σ.V}
    (hg : stepH Y D n ord s (.get how p) = (s', .val (.art (.ok x)))) :
    ∃ v, x = seen Y how v ∧ Cached s' p.id v ∧ MadeNow Y s' p v := by
  rcases stepH_cases (Y := Y) (s := s) D n ord (.get how p) with ⟨_, e⟩ | e
  · rw [e] at hg
    simp only [execH] at hg
    obtain ⟨h1, _, h3⟩ := getAH_coh hrk D n how p s h.inv (h.coherent hrk) _ (Nat.lt_succ_self _)
    generalize getAH Y D n how p s = y at hg h1 h3
    obtain ⟨s1, r⟩ := y
    cases r <;> simp only [Res.map] at hg <;> cases hg
    obtain ⟨hk, ⟨e, he⟩ | ⟨v, he, hv⟩⟩ := h3 _ rfl
    · cases he
    · cases he
      exact ⟨v, rfl, hv, h1 p v hk hv⟩
  · rw [e] at hg; cases hg

/-- **C68** The uses on record form no cycle: nothing depends upon itself, not even through others. -/
theorem C68_no_cycles {rk : σ.B → Nat} (hrk : Ranked Y rk) (h : Reachable Y s) (a : Id) :
    ¬ Relation.TransGen (UsesNow s) a a := by
  have key : ∀ u d, Relation.TransGen (UsesNow s) u d → ∃ bu bd, s.c.known[u]? = some bu ∧ s.c.known[d]? = some bd ∧
      rk bd < rk bu := by
    intro u d hud
    have one : ∀ u d, UsesNow s u d → ∃ bu bd, s.c.known[u]? = some bu ∧ s.c.known[d]? = some bd ∧ rk bd < rk bu := by
      intro u d hu
      obtain ⟨bu, e1⟩ := (mem_getElem _ _).1 (h.inv.depU _ _ ((usesNow_iff ..).1 hu))
      obtain ⟨bd, e2⟩ := (mem_getElem _ _).1 (h.inv.depD _ _ ((usesNow_iff ..).1 hu))
      exact ⟨bu, bd, e1, e2, h.downward hrk u d bu bd hu e1 e2⟩
    induction hud with
    | single h => exact one _ _ h
    | tail _ h ih =>
      obtain ⟨b1, b2, e1, e2, e3⟩ := ih
      obtain ⟨b3, b4, e4, e5, e6⟩ := one _ _ h
      rw [e2] at e4
      cases e4
      exact ⟨b1, b4, e1, e5, Nat.lt_trans e6 e3⟩
  intro ha
  obtain ⟨b1, b2, e1, e2, e3⟩ := key a a ha
  rw [e1] at e2
  cases e2
  exact Nat.lt_irrefl _ e3

/-- Running code again that looks at nothing but what it resolves, when all of that is still in the cache. -/
theorem runProg_again {p : Promise σ} {prog : Prog σ} {d d' : σ.S} {v : σ.V} {r : Except σ.E σ.V}
    (hm : MadeFrom Y s p prog d r d') (hr : r = .ok v) (hc : prog.derives) {t : St σ} (ht : Running Y p t)
    (hty : Y.artTy v = Y.vty p.b)
    (hq : ∀ q : Promise σ, UsesNow s p.id q.id → s.c.known[q.id]? = some q.b →
      t.live q = true ∧ ∀ x, Cached s q.id x → Cached t q.id x) (n : Nat) :
    (runProg Y (getA Y n) p prog t).2 = .val (.ok v) := by
  induction hm generalizing t with
  | ret => cases hr; simp only [runProg]; rw [if_pos hty]
  | @got how q k x d d' r h1 h2 h3 _ ih =>
    obtain ⟨hl, hx⟩ := hq q h1 h2
    rw [runProg_resolve ht hl]
    have t1 := ht.micros (ht.tracked hl)
    have ha : ∀ a y, Cached t a y → Cached (tracked p q t) a y := by
      intro a y h
      simp only [Cached, tracked, St.onCache, addEdge, Cache.emit, makeKnown_artifacts]; exact h
    rw [getA_hit n how t1.inv (s := tracked p q t) hl (ha _ _ (hx x h3))]
    exact ih hr (hc.2 _) t1 fun q' g1 g2 => ⟨(hq q' g1 g2).1, fun y hy => ha _ _ ((hq q' g1 g2).2 y hy)⟩
  | @failed how q k e d d' r h1 h2 h3 ih =>
    rw [hc.1 e] at h3
    cases h3
    cases hr
  | _ => exact hc.elim

/-- **C68** What was derived from other artifacts alone is reproducible: `p` looks at nothing but what it resolves, all that
is still alive, and its artifact `v` was not written by anyone.  If `p` is invalidated and got again, it is built to `v` again,
whatever the other builders look at. -/
theorem C68_rebuild_same {rk : σ.B → Nat} (hrk : Ranked Y rk) (h : Reachable Y s) {p : Promise σ} {v : σ.V}
    (hl : s.live p = true) (hv : Cached s p.id v) (hw : ¬ Written s p.id v) (hc : (Y.code p.b).derives)
    (hq : ∀ q : Promise σ, UsesNow s p.id q.id → s.c.known[q.id]? = some q.b → s.live q = true)
    (n m : Nat) (ord ord' : HashOrder) (how : Access) :
    (step Y (n + 1) ord' (step Y m ord s (.invalidate p)).1 (.get how p)).2 = .val (.art (.ok (seen Y how v))) := by
  obtain ⟨d, d', v0, hm, hd, hv0⟩ := C68_coherent hrk h hl hv
  have : v0 = v := by
    rcases hv0 with e | e
    · exact e.symm
    · exact absurd e hw
  subst this
  have hi := h.inv
  obtain ⟨b, hb⟩ := hi.art_known hv
  rw [hi.heapKnown _ _ _ hb (live_iff.1 hl)] at hb
  have hty : Y.artTy v0 = Y.vty p.b := hi.artTy _ _ _ hv hb
  obtain ⟨c', he, hdr⟩ := invalidate_spec hi ord p
  have hi1 := hi.invalidated (p := p) hdr
  have e1 : (step Y m ord s (.invalidate p)).1 = { s with c := c'.emit (.invalidate p) } := by
    rw [step_live rfl hl]; simp only [exec, he]
  rw [e1]
  have hl1 : ({ s with c := c'.emit (.invalidate p) } : St σ).live p = true := hl
  have ha1 : ({ s with c := c'.emit (.invalidate p) } : St σ).c.artifacts[p.id]? = none := hdr.art_none _ .refl
  rw [step_live rfl hl1]
  simp only [exec]
  rw [getA_miss (n + 1) how hi1 hl1 ha1]
  have hdyn : ({ s with c := c'.emit (.invalidate p) } : St σ).c.dynStates[p.id]? = some d' := by
    simp only [Cache.emit, hdr.dynStates]; exact hd
  have hk1 : ({ s with c := c'.emit (.invalidate p) } : St σ).c.known[p.id]? = some p.b := by
    simp only [Cache.emit, hdr.known]; exact hb
  have hcached : ∀ q : Promise σ, UsesNow s p.id q.id → ∀ x, Cached s q.id x →
      Cached { s with c := c'.emit (.invalidate p) } q.id x := by
    intro q hu x hx
    refine (hdr.art_keep q.id ?_).trans hx
    intro hh
    refine C68_no_cycles hrk h p.id (Relation.TransGen.head' hu ?_)
    exact Relation.ReflTransGen.mono (fun a b h => (usesNow_iff ..).2 h) _ _ hh
  have hlive : ∀ q : Promise σ, UsesNow s p.id q.id → s.c.known[q.id]? = some q.b →
      ({ s with c := c'.emit (.invalidate p) } : St σ).live q = true := fun q h1 h2 => hq q h1 h2
  generalize ({ s with c := c'.emit (.invalidate p) } : St σ) = t at *
  have key : (buildN Y (n + 1) p t).2 = .val (.ok v0) := by
    show (build Y (getA Y n) p t).2 = _
    have hens : ensureDyn Y p t = (t.onCache (makeKnown p), .val d') := by
      have hdt : Y.stTy d' = Y.sty p.b := hi1.dynTy _ _ _ hdyn hk1
      unfold ensureDyn
      simp only [St.onCache, makeKnown_dynStates, hdyn, if_pos hdt]
    rcases build_cases (getA Y n) hi1 hl1 ha1 with ⟨s1, e, _⟩ | ⟨s1, e, _⟩ | ⟨s1, dd, e, e2⟩
    · rw [e] at hens; cases hens
    · rw [e] at hens; cases hens
    · rw [e2, finish_res]
      obtain ⟨r1, m1, a1, _⟩ := ensureDyn_running hi1 hl1 ha1 e
      refine runProg_again hm rfl hc r1 hty (fun q g1 g2 => ?_) n
      rw [e] at hens
      cases hens
      exact ⟨hlive q g1 g2, fun x hx => by
        simp only [Cached, a1]; exact hcached q g1 x hx⟩
  rw [key]
  rfl

/-! ## Examples -/

namespace Demo27

/-- * 0: returns the time, and a second passes.
* 1: counts its builds in its dynamic state, resolves 0 and returns 100 times the count more.
* 2: resolves 1 and 0 and returns the sum.
* otherwise: returns `b`. -/
def code : Nat → Prog Demo.sig
  | 0 => .world (· + 1) fun w => .ret (.ok w)
  | 1 => .myState (· + 1) fun d => .resolve .bin (Demo.P 0) fun r => match r with
    | .ok v => .ret (.ok (v + 100 * d))
    | .error e => .ret (.error e)
  | 2 => .resolve .ref (Demo.P 1) fun r => match r with
    | .ok v => .resolve .cloned (Demo.P 0) fun r => match r with
      | .ok w => .ret (.ok (v + w))
      | .error e => .ret (.error e)
    | .error e => .ret (.error e)
  | b => .ret (.ok b)

def clock : Sys Demo.sig := { Demo.Y with code := code }

theorem ranked : Ranked clock id := by
  intro b
  match b with
  | 0 => exact fun _ => trivial
  | 1 =>
    refine fun d => ⟨by decide, fun r => ?_⟩
    cases r <;> exact trivial
  | 2 =>
    refine ⟨by decide, fun r => ?_⟩
    cases r with
    | error e => exact trivial
    | ok v =>
      refine ⟨by decide, fun r => ?_⟩
      cases r <;> exact trivial
  | _ + 3 => exact trivial

/-- At time 4, 2 is got, 1 is invalidated, and 2 is got again, a few seconds later. -/
def ops : List (Op Demo.sig) :=
  [.alloc (Demo.P 0), .alloc (Demo.P 1), .alloc (Demo.P 2), .get .bin (Demo.P 2), .invalidate (Demo.P 1), .world (· + 5),
    .get .bin (Demo.P 2)]

def sC : St Demo.sig := runOps clock 9 Demo.ord ops (St.new 4)

theorem reach : Reachable clock sC := Reachable.runOps _ (.new (Y := clock) (4 : Nat)) (by decide +kernel)

theorem cached : Cached sC 10 4 ∧ Cached sC 11 204 ∧ Cached sC 12 208 := by unfold Cached; decide +kernel

/-- 1 was built a second time, with 2 in its dynamic state, from the artifact of 0 that was kept. -/
example : MadeNow clock sC (Demo.P 1) (204 : Nat) := C68_coherent ranked reach (by decide +kernel) cached.2.1

theorem unwritten (a v : Nat) : ¬ Written sC a v := by
  rintro ⟨new, old, e, _⟩
  have h1 : (sC.c.log.all fun e => match e with | .write .. => false | _ => true) = true := by decide +kernel
  rw [e] at h1
  simp at h1

/-- And of no other value: coherence says something. -/
example (v : Nat) : MadeNow clock sC (Demo.P 1) v ↔ v = 204 := by
  refine ⟨?_, fun e => e ▸ C68_coherent ranked reach (by decide +kernel) cached.2.1⟩
  rintro ⟨d, d', v0, h, hd, hv⟩
  have h2 : @Eq Nat v v0 := hv.resolve_right (unwritten _ _)
  have h3 : @Eq Nat d' 3 := by
    have : sC.c.dynStates[(11 : Id)]? = some (3 : Nat) := by decide +kernel
    exact (Option.some.inj (this.symm.trans hd)).symm
  have h4 : @Eq Nat v0 (4 + 100 * d) ∧ @Eq Nat d' (d + 1) := by
    cases h with
    | myState h =>
      cases h with
      | got h1 h2 h3 h =>
        have : _ = (4 : Nat) := Option.some.inj (h3.symm.trans cached.1)
        subst this
        cases h
        exact ⟨rfl, rfl⟩
      | failed h1 h2 h => cases h
  omega

/-- 2 looks at nothing but what it resolves: it is built to 208 again, though time has passed. -/
example : (step clock 9 Demo.ord' (step clock 1 Demo.ord sC (.invalidate (Demo.P 2))).1 (.get .ref (Demo.P 2))).2 =
    .val (.art (.ok (208 : Nat))) := by
  refine C68_rebuild_same ranked reach (p := Demo.P 2) (by decide +kernel) cached.2.2 ?_ ?_ ?_ 8 1 Demo.ord Demo.ord' .ref
  · exact unwritten _ _
  · exact ⟨fun e => rfl, fun v => ⟨fun e => rfl, fun v => trivial⟩⟩
  · intro q _ hk
    have : ∀ x ∈ sC.c.known.toList, sC.heap[x.1]? = some x.2 := by decide +kernel
    exact live_iff.2 (this (q.id, q.b) (by simpa using hk))

/-- What `get` returns is coherent, too: the artifact of 2. -/
example : ∃ v, (208 : Nat) = seen clock .bin v ∧ Cached sC 12 v ∧ MadeNow clock sC (Demo.P 2) v := by
  refine C68_get (D := fun w _ => (w, false)) ranked reach (n := 9) (ord := Demo.ord) (how := .bin) (p := Demo.P 2) ?_
  have hl : sC.live (Demo.P 2) = true := by decide +kernel
  rw [C59_quiet_hooks fun _ _ => rfl, step_live rfl hl]
  simp only [exec, getA_hit 9 .bin reach.inv hl cached.2.2, Res.map]
  rfl

example : UsesNow sC 12 11 ∧ UsesNow sC 11 10 ∧ ¬ Relation.TransGen (UsesNow sC) 10 10 :=
  ⟨(usesNow_iff ..).2 (by unfold Dep; decide +kernel), (usesNow_iff ..).2 (by unfold Dep; decide +kernel),
    C68_no_cycles ranked reach 10⟩

/-! The builders must form a directed acyclic graph: -/

/-- * 0: at time 0, resolves 1 and returns 1 more (and a second passes); later, returns 5.
* 1: resolves 0 and returns 100 more.
* otherwise: returns `b`. -/
def loopCode : Nat → Prog Demo.sig
  | 0 => .world (· + 1) fun w => match w with
    | 0 => .resolve .bin (Demo.P 1) fun r => match r with
      | .ok v => .ret (.ok (v + 1))
      | .error e => .ret (.error e)
    | _ => .ret (.ok 5)
  | 1 => .resolve .bin (Demo.P 0) fun r => match r with
    | .ok v => .ret (.ok (v + 100))
    | .error e => .ret (.error e)
  | b => .ret (.ok b)

def loop : Sys Demo.sig := { Demo.Y with code := loopCode }

def sL : St Demo.sig :=
  runOps loop 9 Demo.ord [.alloc (Demo.P 0), .alloc (Demo.P 1), .get .bin (Demo.P 0)] (St.new 0)

/-- 0 and 1 use each other, though no build recurses forever.  1 was built to 105 from the artifact 5 of 0, which then was
replaced by 106 when the outer build of 0 ended: the cache is not coherent, and all operations returned normally. -/
theorem C68_cycles_break_coherence : Reachable loop sL ∧ Cached sL 10 106 ∧ Cached sL 11 105 ∧
    ¬ MadeNow loop sL (Demo.P 1) (105 : Nat) := by
  have h0 : Cached sL 10 106 := by unfold Cached; decide +kernel
  refine ⟨Reachable.runOps _ (.new (Y := loop) (0 : Nat)) (by decide +kernel), h0, by unfold Cached; decide +kernel, ?_⟩
  rintro ⟨d, d', v0, h, _, hv⟩
  have hw : ¬ Written sL (Demo.P 1).id (105 : Nat) := by
    rintro ⟨new, old, e, _⟩
    have h1 : (sL.c.log.all fun e => match e with | .write .. => false | _ => true) = true := by decide +kernel
    rw [e] at h1
    simp at h1
  have h2 : @Eq Nat 105 v0 := hv.resolve_right hw
  have h4 : @Eq Nat v0 206 := by
    cases h with
    | got h1 h2 h3 h =>
      have : _ = (106 : Nat) := Option.some.inj (h3.symm.trans h0)
      subst this
      cases h
      rfl
    | failed h1 h2 h => cases h
  omega

end Demo27

end Daab
