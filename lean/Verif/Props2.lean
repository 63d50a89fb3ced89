import Verif.KnownDynH
import Verif.LogFree
import Verif.Props1

/-!
# Properties: traces, garbage collection, panics, identity
-/

open Std

namespace Daab

variable {σ : Sig} {Y : Sys σ} {s : St σ}

/-! ## C03, second half; C30 -/

/-- **C03** If `get(p)` returns an error or panics, nothing is cached for `p` afterwards, unless a
build of `p` inside this very call (re-entrance) was successful. -/
theorem C03_err_not_cached (h : Reachable Y s) {p : Promise σ} {n : Nat} {ord : HashOrder}
    {how : Access} {s' : St σ} {r : Res (Ans σ)} (hs : step Y n ord s (.get how p) = (s', r))
    (hr : (∃ e, r = .val (.art (.error e))) ∨ ∃ k, r = .panic k) :
    Uncached s' p.id ∨ ∃ q v, q.id = p.id ∧ Since s s' (.built q v) := by
  cases hl : s.live p with
  | false =>
    simp only [step, Op.promise?, hl] at hs
    cases hs
    rcases hr with ⟨e, he⟩ | ⟨k, he⟩ <;> cases he
  | true =>
    rw [step_live rfl hl] at hs
    simp only [exec] at hs
    cases hs
    have hran := (getA_ok Y n).1.ran how p s h.inv
    cases ha : s.c.artifacts[p.id]? with
    | some v =>
      rw [(getA_ok Y n).1.hit how p s h.inv hl v ha] at hr
      rcases hr with ⟨e, he⟩ | ⟨k, he⟩ <;> cases he
    | none =>
      rcases hran.micros.art_built (a := p.id) with he | ⟨q, v, h1, _, h2⟩
      · exact Or.inl (he.trans ha)
      · exact Or.inr ⟨q, v, h1, h2⟩

/-- The hypotheses are met: builder 6 fails, builder 5 panics. -/
example : (∃ s', step Demo.Y 9 Demo.ord Demo.s1 (.get .bin (Demo.P 6)) = (s', .val (.art (.error 6)))) ∧
    ∃ s', step Demo.Y 9 Demo.ord Demo.s1 (.get .bin (Demo.P 5)) = (s', .panic .user) :=
  ⟨⟨_, rfl⟩, ⟨_, rfl⟩⟩

/-- Builder 6 fails after it has resolved 0: 0 stays cached, 6 is not cached. -/
example : let s' := (step Demo.Y 9 Demo.ord (Demo.after []) (.get .bin (Demo.P 6))).1
    Cached s' 10 0 ∧ (Uncached s' 16 ∨ ∃ q v, q.id = 16 ∧ Since (Demo.after []) s' (.built q v)) :=
  ⟨by unfold Cached; decide, C03_err_not_cached (Demo.reach _ (by decide)) (p := Demo.P 6) (how := .bin) (n := 9)
    (ord := Demo.ord) rfl (.inl ⟨6, rfl⟩)⟩

/-! ## C07 -/

/-- Some operation of the history before `s2` made builder `u` resolve `d`, and `u`'s build was not
called in any later operation. -/
def LastUsed (Y : Sys σ) (s2 : St σ) (u d : Id) : Prop :=
  ∃ (s s1 : St σ) (pu pd : Promise σ) (op : Op σ) (r : Res (Ans σ)),
    Reachable Y s ∧ Went Y s op s1 r ∧ r.goesOn ∧
    pu.id = u ∧ pd.id = d ∧ Since s s1 (.resolve pu pd) ∧
    Runs Y s1 s2 ∧ ∀ p : Promise σ, p.id = u → ¬ Since s1 s2 (.call p)

theorem Shape.resolved {s1 : St σ} (h : Shape Y s s1) {u d : Promise σ}
    (hs : Since s s1 (.resolve u d)) : Dep s1.c u.id d.id := by
  obtain ⟨sa, sb, hi, hc, hm, hf⟩ := h
  rw [hf.dep]
  refine hm.micros.resolved ?_
  obtain ⟨e1, h1, q1⟩ := hc.log
  obtain ⟨e3, h3, q3⟩ := hf.log
  obtain ⟨m, hm2⟩ := hm.micros.log_mono
  obtain ⟨new, h4, h5⟩ := hs
  refine ⟨m, hm2.symm, ?_⟩
  have : new = e3 ++ (m ++ e1) := by
    rw [h3, ← hm2, h1] at h4
    have : e3 ++ (m ++ (e1 ++ s.c.log)) = (e3 ++ (m ++ e1)) ++ s.c.log := by simp
    rw [this] at h4
    exact (List.append_cancel_right h4).symm
  rw [this] at h5
  rcases List.mem_append.1 h5 with h | h
  · exact absurd (q3 _ h) (by simp [Event.quiet])
  · rcases List.mem_append.1 h with h | h
    · exact h
    · exact absurd (q1 _ h) (by simp [Event.quiet])

theorem Shape.stays {s1 : St σ} (h : Shape Y s s1) {u d : Id}
    (hu : Dep s.c u d ∨ s.c.artifacts[u]? = none)
    (hno : ∀ p : Promise σ, p.id = u → ¬ Since s s1 (.call p)) :
    Dep s1.c u d ∨ s1.c.artifacts[u]? = none := by
  obtain ⟨sa, sb, hi, hc, hm, hf⟩ := h
  have h1 : Dep sa.c u d ∨ sa.c.artifacts[u]? = none := by
    rcases hu with h | h
    · exact hc.dep u d h
    · exact Or.inr (hc.art u h)
  rw [hf.dep, hf.art]
  rcases h1 with h | h
  · exact Or.inl (hm.micros.dep_mono u d h)
  · rcases hm.artLocal u with he | ⟨p, hp, hs⟩
    · exact Or.inr (he.trans h)
    · exfalso
      refine hno p hp ?_
      obtain ⟨e1, h1, _⟩ := hc.log
      obtain ⟨e3, h3, _⟩ := hf.log
      exact (hs.of_prefix ⟨e1, h1.symm⟩).of_suffix ⟨e3, h3.symm⟩

theorem Runs.stays {s1 s2 : St σ} (h : Runs Y s1 s2) (hr : Reachable Y s1) {u d : Id}
    (hu : Dep s1.c u d ∨ s1.c.artifacts[u]? = none)
    (hno : ∀ p : Promise σ, p.id = u → ¬ Since s1 s2 (.call p)) :
    Dep s2.c u d ∨ s2.c.artifacts[u]? = none := by
  induction h with
  | refl => exact hu
  | @step s' s'' op r h1 hw hg ih =>
    have hi := (h1.reachable hr).inv
    have hl := (hw.transs hi hg).log_mono
    have hl' := (h1.transs hr.inv).log_mono
    refine (hw.shape hi hg).stays (ih fun p hp hs => hno p hp (hs.of_suffix hl)) ?_
    exact fun p hp hs => hno p hp (hs.of_prefix hl')

/-- **C07** (direct use) If the last called build of `u` used `d` and `u` is still cached, then the
use is on record ... -/
theorem C07_use_on_record {s2 : St σ} {u d : Id} (h : LastUsed Y s2 u d) {v : σ.V}
    (hv : Cached s2 u v) : UsesNow s2 u d := by
  obtain ⟨s, s1, pu, pd, op, r, hr, hs, hg, rfl, rfl, hsince, hruns, hno⟩ := h
  have hsh := hs.shape hr.inv hg
  have hr1 : Reachable Y s1 := hr.went hs hg
  rw [usesNow_iff]
  rcases hruns.stays hr1 (Or.inl (hsh.resolved hsince)) hno with h | h
  · exact h
  · unfold Cached at hv; rw [h] at hv; cases hv

/-- **C07** ... so `invalidate(d)` removes it, also through chains of uses by cached builders:
no stale artifact survives the invalidation of something it was built from. -/
theorem C07_no_stale {s2 : St σ} (h2 : Reachable Y s2) {u : Id} {p : Promise σ}
    (hl : s2.live p = true)
    (hchain : Relation.TransGen (fun x y => LastUsed Y s2 x y ∧ ∃ v, Cached s2 x v) u p.id)
    (n : Nat) (ord : HashOrder) : Uncached (step Y n ord s2 (.invalidate p)).1 u := by
  have hhit : Hit (UsesNow s2) p.id u := by
    refine Relation.ReflTransGen.mono ?_ _ _ hchain.to_reflTransGen
    rintro x y ⟨hx, v, hv⟩
    exact C07_use_on_record hx hv
  obtain ⟨c', he, hd⟩ := step_invalidate h2 hl n ord
  rw [he]
  rw [usesNow_eq] at hhit
  exact hd.art_none u hhit

/-- The hypotheses are met: builder 2 resolved 1, and `invalidate(1)` removes its artifact. -/
example : Uncached (step Demo.Y 9 Demo.ord Demo.s1 (.invalidate (Demo.P 1))).1 12 := by
  refine C07_no_stale Demo.reach1 (p := Demo.P 1) (by decide) (.single ⟨?_, 110, by unfold Cached; decide⟩)
    9 Demo.ord
  refine ⟨Demo.after [.dynStateMut (Demo.P 0) (fun _ => 5)], Demo.s1, Demo.P 2, Demo.P 1,
    .get .bin (Demo.P 2), .val (.art (.ok 110)), Demo.reach _ (by decide), .plain 9 Demo.ord, trivial, rfl, rfl, ?_,
    .refl, ?_⟩
  · exact ⟨[.built (Demo.P 2) 110, .resolve (Demo.P 2) (Demo.P 0), .built (Demo.P 1) 105,
      .built (Demo.P 0) 5, .setDyn (Demo.P 0) 5, .call (Demo.P 0), .resolve (Demo.P 1) (Demo.P 0),
      .call (Demo.P 1), .initDyn (Demo.P 1) (some 1), .resolve (Demo.P 2) (Demo.P 1), .call (Demo.P 2),
      .initDyn (Demo.P 2) (some 2)], rfl, by simp⟩
  · rintro p _ ⟨new, h1, h2⟩
    have : new = [] := by
      have := congrArg List.length h1
      simpa using this
    rw [this] at h2
    cases h2

/-! ## C11, C12 dynamic states -/

/-- **C11** `dyn_state_mut(p)` hands out the current state, or a newly initialised one if there was
none; afterwards the state is what was written; exactly the artifacts of `p` and its transitive users
are gone; no other state, and nothing else, changes. -/
theorem C11_dyn_state_mut (h : Reachable Y s) {p : Promise σ} {f : σ.S → σ.S} {n : Nat}
    {ord : HashOrder} {s' : St σ} {d : σ.S}
    (hs : step Y n ord s (.dynStateMut p f) = (s', .val (.state d))) :
    (HasState s p.id d ∧ s'.w = s.w ∨
      (∀ d0, ¬ HasState s p.id d0) ∧ Y.init p.b s.w = (s'.w, some d)) ∧
    HasState s' p.id (f d) ∧
    (∀ a v, Cached s' a v ↔ Cached s a v ∧ ¬ Hit (Abs.of s.c.log).dep p.id a) ∧
    (∀ a d', a ≠ p.id → (HasState s' a d' ↔ HasState s a d')) ∧
    (∀ a, Known s' a ↔ Known s a ∨ a = p.id) ∧ s'.heap = s.heap := by
  cases hl : s.live p with
  | false => simp [step, Op.promise?, hl] at hs
  | true =>
    rw [step_live rfl hl] at hs
    simp only [exec] at hs
    obtain ⟨c', he, hd⟩ := invalidate_spec h.inv ord p
    unfold dynStateMut at hs
    rw [he] at hs
    simp only [ensureDyn] at hs
    have hart : ∀ a v, c'.artifacts[a]? = some v ↔
        s.c.artifacts[a]? = some v ∧ ¬ Hit (Abs.of s.c.log).dep p.id a := by
      rw [← absDep_eq h.inv]; exact fun a v => hd.art_iff a v
    have hdyn : (St.onCache { s with c := c'.emit (.invalidate p) } (makeKnown p)).c.dynStates =
        s.c.dynStates := by
      simp [St.onCache, Cache.emit, hd.dynStates]
    have hkn : ∀ a, a ∈ (St.onCache { s with c := c'.emit (.invalidate p) }
        (makeKnown p)).c.known ↔ a ∈ s.c.known ∨ a = p.id := by
      clear hs
      intro a
      by_cases ha : a = p.id
      · subst ha
        simp only [mem_getElem, St.onCache, makeKnown_getElem, Cache.emit, hd.known]
        simp
      · simp only [mem_getElem, St.onCache, makeKnown_getElem, Cache.emit, hd.known]
        simp [ha]
    have har : (St.onCache { s with c := c'.emit (.invalidate p) } (makeKnown p)).c.artifacts =
        c'.artifacts := by
      simp [St.onCache, Cache.emit]
    have hw : (St.onCache { s with c := c'.emit (.invalidate p) } (makeKnown p)).w = s.w := rfl
    have hh : (St.onCache { s with c := c'.emit (.invalidate p) } (makeKnown p)).heap = s.heap := rfl
    generalize St.onCache { s with c := c'.emit (.invalidate p) } (makeKnown p) = s1 at *
    unfold HasState Cached Known
    cases hdd : s1.c.dynStates[p.id]? with
    | some d0 =>
      rw [hdd] at hs
      simp only at hs
      by_cases h1 : Y.stTy d0 = Y.sty p.b
      · by_cases h2 : Y.stTy (f d0) = Y.sty p.b
        · simp only [h1, h2, if_true, Res.map, St.onCache, Cache.emit] at hs
          cases hs
          simp only [har, hdyn, hw, hh]
          rw [hdyn] at hdd
          refine ⟨Or.inl ⟨hdd, trivial⟩, by simp, hart, ?_, hkn, trivial⟩
          intro a d' hne
          grind
        · simp [h1, h2, Res.map] at hs
      · simp [h1, Res.map] at hs
    | none =>
      rw [hdd, hw] at hs
      simp only at hs
      rcases hin : Y.init p.b s.w with ⟨w, _ | d0⟩
      · simp [hin, Res.map] at hs
      · rw [hin] at hs
        by_cases h1 : Y.stTy d0 = Y.sty p.b
        · by_cases h2 : Y.stTy (f d0) = Y.sty p.b
          · simp only [h1, h2, if_true, Res.map, St.onCache, Cache.emit] at hs
            cases hs
            simp only [har, hdyn, hh]
            rw [hdyn] at hdd
            refine ⟨Or.inr ⟨?_, trivial⟩, by simp, hart, ?_, hkn, trivial⟩
            · intro d1 hd1; rw [hdd] at hd1; cases hd1
            · intro a d' hne
              grind
          · simp [h1, h2, Res.map] at hs
        · simp [h1, Res.map] at hs

/-- The hypothesis is met: the state 5 of builder 0 is handed out and 8 is written. -/
example : ∃ s', step Demo.Y 9 Demo.ord Demo.s1 (.dynStateMut (Demo.P 0) (· + 3)) = (s', .val (.state 5)) ∧
    HasState s' 10 8 ∧ Uncached s' 12 :=
  ⟨_, rfl, by unfold HasState; decide, by unfold Uncached; decide⟩

/-- The state of 0, which was 5, is overwritten; 2, which used it, is gone. -/
example : let s' := (step Demo.Y 9 Demo.ord Demo.s1 (.dynStateMut (Demo.P 0) (· + 3))).1
    HasState s' 10 8 ∧ Uncached s' 12 :=
  ⟨(C11_dyn_state_mut Demo.reach1 (p := Demo.P 0) (f := (· + 3)) (n := 9) (ord := Demo.ord) (d := (5 : Nat)) rfl).2.1,
    by unfold Uncached; decide⟩

theorem not_live_of_garbage (hi : Inv Y s) {a : Id} (hg : Garbage s a) : Dead s a := by
  obtain ⟨b, hb, hn, _⟩ := hg
  intro p hp
  subst hp
  cases hl : s.live p with
  | false => rfl
  | true =>
    have := hi.heapKnown _ _ _ hb (live_iff.1 hl)
    subst this
    exact absurd (live_iff.1 hl) hn

/-- **C12** A dynamic state survives every operation, with these exceptions: it may be changed by
`dyn_state_mut` of that builder or during an operation that calls this builder's own build; it is
removed by `purge` of that builder, by `clear_all`, or by a garbage collection when nobody
references the builder any more. -/
theorem C12_state_persists (h : Reachable Y s) {op : Op σ} {n : Nat} {ord : HashOrder} {s' : St σ}
    {r : Res (Ans σ)} (hs : step Y n ord s op = (s', r)) (hg : r.goesOn) {a : Id} {d : σ.S}
    (hd : HasState s a d) :
    HasState s' a d ∨
    ((∃ d', HasState s' a d') ∧
      ((∃ p f, op = .dynStateMut p f ∧ p.id = a) ∨ ∃ p : Promise σ, p.id = a ∧ Since s s' (.call p))) ∨
    (∃ p, op = .purge p ∧ p.id = a) ∨ op = .clearAll ∨ (op = .gc ∧ Dead s a) := by
  have hi := h.inv
  -- the promise of the operation is alive, or nothing happens
  by_cases hlive : ∀ p, op.promise? = some p → s.live p = true
  swap
  · left
    have : s' = s := by
      unfold step at hs
      cases hp : op.promise? with
      | none => exact absurd (fun p h => by rw [hp] at h; cases h) hlive
      | some p =>
        rw [hp] at hs
        have : s.live p = false := by
          cases hl : s.live p with
          | false => rfl
          | true => exact absurd (fun q h => by rw [hp] at h; cases h; exact hl) hlive
        simp only [this] at hs
        cases hs
        rfl
    rw [this]; exact hd
  have hse : step Y n ord s op = exec Y n ord s op := by
    unfold step
    cases hp : op.promise? with
    | none => rfl
    | some p => simp only [hlive p hp, if_true]
  rw [hse] at hs
  have hs1 : s' = (exec Y n ord s op).1 := by rw [hs]
  have hs2 : r = (exec Y n ord s op).2 := by rw [hs]
  subst hs1 hs2
  have hmem : a ∈ s.c.dynStates := (mem_getElem _ _).2 ⟨d, hd⟩
  cases op with
  | get how p =>
    have hran := (getA_ok Y n).1.ran how p s hi
    rcases hran.dynLocal a (by simp) with h1 | ⟨q, hq, hs⟩
    · exact Or.inl (h1 d hd)
    · exact Or.inr (Or.inl ⟨(mem_getElem _ _).1 (hran.micros.dyn_mono a hmem), Or.inr ⟨q, hq, hs⟩⟩)
  | getMut p f =>
    have hl := hlive p rfl
    simp only [exec] at hg ⊢
    rcases getMut_spec hi n ord hl with ⟨c', he, _⟩ | ⟨c1, h1, hrest⟩
    · rw [he] at hg; exact absurd rfl hg
    · rcases hi.invalidateDependents ord p.id with ⟨c', he', _⟩ |
        ⟨c', he', _, hinv, _, hkn, hdy, _, _, hlg, _⟩
      · rw [h1] at he'; cases he'
      · rw [h1] at he'
        cases he'
        rcases hrest with ⟨c2, v, _, h12, h2, _, he⟩ | ⟨h2, he⟩
        · rcases hinv.invalidateDependents ord p.id with ⟨c', he', _⟩ |
            ⟨c', he', _, _, _, hkn2, hdy2, _, _, hlg2, _⟩
          · simp only at he'; rw [h12] at he'; cases he'
          · simp only at he'
            rw [h12] at he'
            cases he'
            left
            have : c2.dynStates = s.c.dynStates := hdy2.trans hdy
            rw [he]
            simp only [writeArt]
            by_cases ht : Y.artTy (f v) = Y.vty p.b
            · simp only [ht, if_true, HasState, Cache.emit, this]; exact hd
            · simp only [ht, if_false, HasState, this]; exact hd
        · rw [he] at hg ⊢
          have hran := (getA_ok Y n).2.ran p { s with c := c1 } hinv hl h2
          generalize buildN Y n p { s with c := c1 } = x at hran hg ⊢
          obtain ⟨s2, r⟩ := x
          have hd1 : ({ s with c := c1 } : St σ).c.dynStates[a]? = some d := by
            simp only [hdy]; exact hd
          have hs1 : s.c.log <:+ ({ s with c := c1 } : St σ).c.log := by
            simp only [hlg]; exact List.suffix_cons _ _
          have key : ∀ s3 : St σ, s3.c.dynStates = s2.c.dynStates → s2.c.log <:+ s3.c.log →
              HasState s3 a d ∨ ((∃ d', HasState s3 a d') ∧
                ∃ p : Promise σ, p.id = a ∧ Since s s3 (.call p)) := by
            intro s3 h3 h4
            unfold HasState
            rw [h3]
            rcases hran.dynLocal a (by simp) with h5 | ⟨q, hq, hs⟩
            · exact Or.inl (h5 d hd1)
            · refine Or.inr ⟨(mem_getElem _ _).1 (hran.micros.dyn_mono a ?_), q, hq,
                (hs.of_prefix hs1).of_suffix h4⟩
              exact (mem_getElem _ _).2 ⟨d, hd1⟩
          have fin : ∀ s3 : St σ, (HasState s3 a d ∨ ((∃ d', HasState s3 a d') ∧
                ∃ p : Promise σ, p.id = a ∧ Since s s3 (.call p))) →
              HasState s3 a d ∨ ((∃ d', HasState s3 a d') ∧
              ((∃ p' f', (.getMut p f : Op σ) = .dynStateMut p' f' ∧ p'.id = a) ∨
                ∃ p : Promise σ, p.id = a ∧ Since s s3 (.call p))) ∨
              (∃ p', (.getMut p f : Op σ) = .purge p' ∧ p'.id = a) ∨
              (.getMut p f : Op σ) = .clearAll ∨ ((.getMut p f : Op σ) = .gc ∧ Dead s a) := by
            rintro s3 (h | ⟨h1, h2⟩)
            · exact Or.inl h
            · exact Or.inr (Or.inl ⟨h1, Or.inr h2⟩)
          apply fin
          rcases r with (e | v) | k | _ | _
          · exact key s2 rfl (List.suffix_refl _)
          · simp only [writeArt]
            by_cases ht : Y.artTy (f v) = Y.vty p.b
            · simp only [ht, if_true]
              exact key _ rfl (List.suffix_cons _ _)
            · simp only [ht, if_false]
              exact key s2 rfl (List.suffix_refl _)
          · exact key s2 rfl (List.suffix_refl _)
          · exact key s2 rfl (List.suffix_refl _)
          · exact key s2 rfl (List.suffix_refl _)
  | lookup how p => exact Or.inl hd
  | lookupMut p f =>
    left
    have hl := hlive p rfl
    simp only [exec] at hg ⊢
    rcases lookupMut_spec hi ord hl with ⟨c', he, _⟩ | ⟨c1, he, h1⟩
    · rw [he] at hg; exact absurd rfl hg
    · rcases hi.invalidateDependents ord p.id with ⟨c', he', _⟩ |
        ⟨c', he', _, hinv, _, hkn, hdy, _, _, hlg, _⟩
      · rw [h1] at he'; cases he'
      · rw [h1] at he'
        cases he'
        rw [he]
        cases ha : c1.artifacts[p.id]? with
        | none => simp only [HasState, hdy]; exact hd
        | some v =>
          simp only [writeArt]
          by_cases ht : Y.artTy (f v) = Y.vty p.b
          · simp only [ht, if_true, HasState, Cache.emit, hdy]; exact hd
          · simp only [ht, if_false, HasState, hdy]; exact hd
  | dynState p =>
    have hran := (ensureDyn_ran hi (hlive p rfl)).1
    rcases hran.dynLocal a (by simp) with h1 | ⟨q, hq, hs⟩
    · exact Or.inl (h1 d hd)
    · exact Or.inr (Or.inl ⟨(mem_getElem _ _).1 (hran.micros.dyn_mono a hmem), Or.inr ⟨q, hq, hs⟩⟩)
  | getDynState p => exact Or.inl hd
  | dynStateMut p f =>
    by_cases hpa : p.id = a
    · refine Or.inr (Or.inl ⟨?_, Or.inl ⟨p, f, rfl, hpa⟩⟩)
      have hl := hlive p rfl
      obtain ⟨c', he, hdr⟩ := invalidate_spec hi ord p
      have hinv := hi.invalidated hdr
      simp only [exec, dynStateMut, he]
      have hen := (ensureDyn_ran hinv (p := p) hl).1.micros.dyn_mono a (by
        simp only [Cache.emit, hdr.dynStates]; exact hmem)
      generalize ensureDyn Y p { s with c := c'.emit (.invalidate p) } = x at hen ⊢
      obtain ⟨s2, r⟩ := x
      unfold HasState
      rw [← mem_getElem]
      rcases r with d' | k | _ | _
      · simp only
        split
        · simp only [St.onCache, Cache.emit]
          have hen : a ∈ s2.c.dynStates := hen
          grind
        · exact hen
      · exact hen
      · exact hen
      · exact hen
    · left
      have hl := hlive p rfl
      obtain ⟨c', he, hdr⟩ := invalidate_spec hi ord p
      have hinv := hi.invalidated hdr
      simp only [exec, dynStateMut, he]
      have hd1 : ({ s with c := c'.emit (.invalidate p) } : St σ).c.dynStates[a]? = some d := by
        simp only [Cache.emit, hdr.dynStates]; exact hd
      have hkeep : (ensureDyn Y p { s with c := c'.emit (.invalidate p) }).1.c.dynStates[a]? =
          some d := by
        unfold ensureDyn
        have h2 : (St.onCache { s with c := c'.emit (.invalidate p) } (makeKnown p)).c.dynStates =
          s.c.dynStates := by simp [St.onCache, Cache.emit, hdr.dynStates]
        generalize St.onCache { s with c := c'.emit (.invalidate p) } (makeKnown p) = s1 at h2 ⊢
        have hd1 : s1.c.dynStates[a]? = some d := by rw [h2]; exact hd
        simp only
        cases s1.c.dynStates[p.id]? with
        | some d0 => exact hd1
        | none =>
          rcases Y.init p.b s1.w with ⟨w, _ | d0⟩
          · exact hd1
          · simp only
            split
            · simp only [Cache.emit]; grind
            · exact hd1
      generalize ensureDyn Y p { s with c := c'.emit (.invalidate p) } = x at hkeep ⊢
      obtain ⟨s2, r⟩ := x
      unfold HasState
      rcases r with d' | k | _ | _
      · simp only
        split
        · simp only [St.onCache, Cache.emit]
          have hkeep : s2.c.dynStates[a]? = some d := hkeep
          grind
        · exact hkeep
      · exact hkeep
      · exact hkeep
      · exact hkeep
  | isKnown p => exact Or.inl hd
  | numKnown => exact Or.inl hd
  | invalidate p =>
    obtain ⟨c', he, hdr⟩ := invalidate_spec hi ord p
    left
    simp only [exec, he, HasState, Cache.emit, hdr.dynStates]
    exact hd
  | purge p =>
    by_cases hpa : p.id = a
    · exact Or.inr (Or.inr (Or.inl ⟨p, rfl, hpa⟩))
    · left
      obtain ⟨c', cF, he, hdr, hF⟩ := purge_spec hi ord p
      subst hF
      simp only [exec, he, HasState]
      unfold HasState at hd
      grind
  | clearArtifacts => exact Or.inl hd
  | clearAll => exact Or.inr (Or.inr (Or.inr (Or.inl rfl)))
  | gc =>
    simp only [exec]
    rcases gc_spec hi ord with ⟨he, _⟩ | ⟨_, c', he, h1, l, h6, h7⟩
    · rw [he]; exact Or.inl hd
    · rw [he]
      by_cases hga : Garbage s a
      · exact Or.inr (Or.inr (Or.inr (Or.inr ⟨trivial, not_live_of_garbage hi hga⟩)))
      · exact Or.inl ((h1.dyn_keep a hga).trans hd)
  | alloc p =>
    left
    simp only [exec]
    cases ha : allocB p s with
    | none => exact hd
    | some s1 => simp only [HasState, allocB_c ha]; exact hd
  | free a => exact Or.inl hd
  | world f => exact Or.inl hd

/-- The hypotheses are met, e.g. by invalidating another builder. -/
example : ∃ s', step Demo.Y 9 Demo.ord Demo.s1 (.invalidate (Demo.P 1)) = (s', .val .unit) ∧
    HasState Demo.s1 10 5 := ⟨_, rfl, by unfold HasState; decide⟩

/-- The state of 0 survives the invalidation of 0 (none of the exceptions applies). -/
example : HasState (step Demo.Y 9 Demo.ord Demo.s1 (.invalidate (Demo.P 0))).1 10 5 := by
  have h := C12_state_persists Demo.reach1 (op := .invalidate (Demo.P 0)) (n := 9) (ord := Demo.ord) rfl (by decide)
    (a := 10) (d := (5 : Nat)) (by unfold HasState; decide)
  rcases h with h | ⟨_, ⟨_, _, h, _⟩ | ⟨q, _, post, h, hm⟩⟩ | ⟨_, h, _⟩ | h | ⟨h, _⟩
  · exact h
  all_goals first | cases h | skip
  obtain rfl : post = [.invalidate (Demo.P 0)] := List.append_cancel_right (bs := Demo.s1.c.log) h.symm
  cases hm with
  | tail _ hm => cases hm

/-! ## C16, second half -/

/-- **C16** `is_builder_known(p) = true` only if there is a dynamic state, or `init_dyn_state` of a
builder at this address panicked.  This holds with any doctors, `Debug` and `Clone` implementations, as long as no
doctor panics when it is told about a use. -/
theorem C16_known_means_state (h : Undisturbed Y s) {p : Promise σ} {n : Nat} {ord : HashOrder}
    (hk : (step Y n ord s (.isKnown p)).2 = .val (.bool true)) :
    (∃ d, HasState s p.id d) ∨
      ∃ q : Promise σ, q.id = p.id ∧ Event.initDyn q none ∈ s.c.log := by
  have hm : p.id ∈ s.c.known := by
    simp only [step, Op.promise?, exec, isKnown] at hk
    split at hk
    · simpa using hk
    · cases hk
  rcases h.knownDyn p.id hm (by simp) with h | ⟨q, h1, h2⟩
  · exact Or.inl ((mem_getElem _ _).1 h)
  · exact Or.inr ⟨q, h1, h2⟩

example : (∃ d, HasState Demo.s1 10 d) ∨
    ∃ q : Promise Demo.sig, q.id = 10 ∧ Event.initDyn q none ∈ Demo.s1.c.log :=
  C16_known_means_state Demo.undisturbed1 (p := Demo.P 0) (n := 0) (ord := Demo.ord) rfl

end Daab
