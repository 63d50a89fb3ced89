import Verif.Preserve
import Verif.Utils
import Verif.Pure

/-! # Lemmas about builders that start by resolving another one -/

open Std

namespace Daab

variable {σ : Sig} {Y : Sys σ} {s : St σ}

/-! ## Dependencies that every build records -/

theorem runProg_demands {g : Getter σ} (hg : GetOk Y g) {C : Promise σ → Prop} {p : Promise σ}
    (prog : Prog σ) (hd : prog.demands C) (hr : Running Y p s) {s' : St σ} {r : Except σ.E σ.V}
    (he : runProg Y g p prog s = (s', .val r)) : ∃ q, C q ∧ Dep s'.c p.id q.id := by
  induction prog generalizing s with
  | ret r => exact hd.elim
  | panic => simp [runProg] at he
  | resolve how q k ih =>
    cases hl : s.live q with
    | false => rw [runProg_resolve_dead hl] at he; cases he
    | true =>
      have hran := hr.run hg (.resolve how q k)
      rw [runProg_resolve hr hl] at he hran
      have hr1 := hr.micros (hr.tracked hl)
      have d1 : Dep (tracked p q s).c p.id q.id := by
        simp only [tracked, St.onCache, addEdge_dep]; simp
      have hran2 := hg.ran how q _ hr1.inv
      have m2 := hran2.micros
      generalize g how q (tracked p q s) = x at he m2
      obtain ⟨s2, r2⟩ := x
      cases r2 with
      | val r2 =>
        have hr2 := hr1.micros m2
        rcases hd with hq | hd
        · have m3 := (hr2.run hg (k r2)).micros
          simp only [andThen] at he
          rw [he] at m3
          exact ⟨q, hq, m3.dep_mono _ _ (m2.dep_mono _ _ d1)⟩
        · exact ih r2 (hd r2) hr2 he
      | panic => cases he
      | stuck => cases he
      | overflow => cases he
  | myState f k ih =>
    obtain ⟨d, _, ⟨_, e⟩ | ⟨m, e⟩⟩ := runProg_myState_cases hr g f k
    · rw [e] at he; cases he
    · rw [e] at he; exact ih d (hd d) (hr.micro m) he
  | world f k ih => exact ih s.w (hd s.w) (hr.micro (.world _)) he
  | alloc q k ih =>
    simp only [runProg] at he
    cases ha : allocB q s with
    | none => rw [ha] at he; cases he
    | some s1 => rw [ha] at he; exact ih hd (hr.micro (.alloc q ha)) he
  | free a k ih => exact ih hd (hr.micro (.free a)) he

theorem runProgH_demands (D : Hooks σ) {g : Getter σ} (hg : GetRan Y g) {C : Promise σ → Prop} {p : Promise σ}
    (prog : Prog σ) (hd : prog.demands C) (hr : Running Y p s) {s' : St σ} {r : Except σ.E σ.V}
    (he : runProgH Y D g p prog s = (s', .val r)) : ∃ q, C q ∧ Dep s'.c p.id q.id := by
  induction prog generalizing s with
  | ret r => exact hd.elim
  | panic => simp [runProgH] at he
  | resolve how q k ih =>
    cases hl : s.live q with
    | false => rw [runProgH_resolve_dead hl] at he; cases he
    | true =>
      rw [runProgH_resolve hr hl] at he
      have hr1 := hr.micros (hr.tracked hl)
      have d1 : Dep (tracked p q s).c p.id q.id := by
        simp only [tracked, St.onCache, addEdge_dep]; simp
      obtain ⟨w, e | e⟩ := callHook_cases D (.report (.resolve p q)) (tracked p q s) fun s =>
        andThen (g how q s) fun r s => runProgH Y D g p (k r) s
      · rw [e] at he; cases he
      rw [e] at he
      replace hr1 := hr1.micro (.world w)
      have m2 := (hg how q _ hr1.inv).micros
      generalize g how q { tracked p q s with w := w } = x at he m2
      obtain ⟨s2, r2⟩ := x
      cases r2 with
      | val r2 =>
        have hr2 := hr1.micros m2
        rcases hd with hq | hd
        · have m3 := (runProgH_ran D hg (k r2) hr2.inv hr2.known hr2.dyn hr2.pend).1.micros
          simp only [andThen] at he
          rw [he] at m3
          exact ⟨q, hq, m3.dep_mono _ _ (m2.dep_mono _ _ d1)⟩
        · exact ih r2 (hd r2) hr2 he
      | panic => cases he
      | stuck => cases he
      | overflow => cases he
  | myState f k ih =>
    obtain ⟨d, _, hst, e⟩ := hr.myState_eq f
    rw [runProgH_myState, e] at he
    split at he
    · next ht => exact ih d (hd d) (hr.micro (.setDyn p (f d) hr.known hr.dyn ht)) he
    · cases he
  | world f k ih => exact ih s.w (hd s.w) (hr.micro (.world _)) he
  | alloc q k ih =>
    simp only [runProgH] at he
    cases ha : allocB q s with
    | none => rw [ha] at he; cases he
    | some s1 => rw [ha] at he; exact ih hd (hr.micro (.alloc q ha)) he
  | free a k ih => exact ih hd (hr.micro (.free a)) he

/-- Cached artifacts have the dependencies recorded that their builders cannot avoid. -/
def DemandsKept (Y : Sys σ) (s : St σ) : Prop :=
  ∀ (p : Promise σ) (C : Promise σ → Prop), s.c.known[p.id]? = some p.b → p.id ∈ s.c.artifacts →
    (Y.code p.b).demands C → ∃ q, C q ∧ Dep s.c p.id q.id

theorem DemandsKept.weaken {s' : St σ} (h : DemandsKept Y s)
    (hk : ∀ (a : Id) b, s'.c.known[a]? = some b → a ∈ s'.c.artifacts → s.c.known[a]? = some b)
    (ha : ∀ a, a ∈ s'.c.artifacts → a ∈ s.c.artifacts)
    (hd : ∀ u d, u ∈ s'.c.artifacts → Dep s.c u d → Dep s'.c u d) : DemandsKept Y s' := by
  intro p C h1 h2 h3
  obtain ⟨q, hq, hqd⟩ := h p C (hk _ _ h1 h2) (ha _ h2) h3
  exact ⟨q, hq, hd _ _ h2 hqd⟩

theorem mem_of_getElem? {α : Type} {m m' : AMap α} {a : Id} (h : m'[a]? = m[a]?) : a ∈ m' ↔ a ∈ m := by
  rw [mem_getElem, mem_getElem, h]

theorem ensureDyn_same (p : Promise σ) (s : St σ) :
    (ensureDyn Y p s).1.c.artifacts = s.c.artifacts ∧
    (ensureDyn Y p s).1.c.dependents = s.c.dependents ∧
    (ensureDyn Y p s).1.c.known = (makeKnown p s.c).known ∧
    (ensureDyn Y p s).1.heap = s.heap ∧
    ∀ a : Id, a ≠ p.id → (ensureDyn Y p s).1.c.dynStates[a]? = s.c.dynStates[a]? := by
  unfold ensureDyn
  simp only [St.onCache]
  repeat' split
  all_goals simp [Cache.emit]
  intro a ha
  grind

theorem makeKnown_art (hi : Inv Y s) {p : Promise σ} {a : Id} {b : σ.B}
    (h : (makeKnown p s.c).known[a]? = some b) (ha : a ∈ s.c.artifacts) : s.c.known[a]? = some b := by
  have hk := hi.dynKnown _ (hi.artDyn a ha)
  rw [mem_getElem] at hk
  obtain ⟨b', hb'⟩ := hk
  rw [makeKnown_getElem] at h
  grind

theorem demandsKept_init (p : Promise σ) (s : St σ) (hi : Inv Y s) (_hl : s.live p = true)
    (h : DemandsKept Y s) (_he : (ensureDyn Y p s).2.ended) : DemandsKept Y (ensureDyn Y p s).1 := by
  obtain ⟨h1, h2, h3, _⟩ := ensureDyn_same (Y := Y) p s
  refine h.weaken ?_ ?_ ?_
  · intro a b hb ha
    rw [h1] at ha
    rw [h3] at hb
    exact makeKnown_art hi hb ha
  · intro a ha; rwa [h1] at ha
  · intro u d _ hd; simpa only [Dep, h2] using hd

theorem demandsKept_own (p : Promise σ) (L : Promise σ → Prop) (s s' : St σ) (hr : Running Y p s)
    (ho : OwnStep Y L p s s') (h : DemandsKept Y s) : DemandsKept Y s' := by
  have hm := ho.micros hr
  cases ho with
  | track q _ hl =>
    refine h.weaken ?_ ?_ fun u d _ hd => hm.dep_mono _ _ hd
    · intro a b hb ha
      have ha' : a ∈ s.c.artifacts := by
        simpa [tracked, St.onCache, addEdge, Cache.emit] using ha
      exact makeKnown_art hr.inv (p := q) hb ha'
    · intro a ha; simpa [tracked, St.onCache, addEdge, Cache.emit] using ha
  | wrote d _ => exact h.weaken (fun _ _ h _ => h) (fun _ h => h) (fun _ _ _ h => h)
  | world w => exact h.weaken (fun _ _ h _ => h) (fun _ h => h) (fun _ _ _ h => h)
  | alloc q ha =>
    have := allocB_c ha
    exact h.weaken (by rw [this]; exact fun _ _ h _ => h) (by rw [this]; exact fun _ h => h)
      (by rw [this]; exact fun _ _ _ h => h)
  | free a => exact h.weaken (fun _ _ h _ => h) (fun _ h => h) (fun _ _ _ h => h)

theorem demandsKept_end (p : Promise σ) (s' : St σ) (w : σ.W) (v : σ.V) (hr' : Running Y p s')
    (he : ∀ C, (Y.code p.b).demands C → ∃ q, C q ∧ Dep s'.c p.id q.id) (h : DemandsKept Y s') :
    DemandsKept Y (finish p ({ s' with w := w }, .val (.ok v))).1 := by
  intro x C hk hx hd
  by_cases hxp : x.id = p.id
  · have hb : x.b = p.b := by
      have : s'.c.known[x.id]? = some x.b := hk
      rw [hxp, hr'.known] at this
      exact (Option.some.inj this).symm
    rw [hb] at hd
    obtain ⟨q, hq, hqd⟩ := he C hd
    rw [hxp]
    exact ⟨q, hq, hqd⟩
  · refine h x C hk ?_ hd
    rw [mem_of_getElem? (m := s'.c.artifacts)] at hx
    · exact hx
    · exact finish_artifacts hxp

theorem demandsKept_ops (Y : Sys σ) : OpsPreserve Y (DemandsKept Y) fun _ => True := by
  constructor
  · intro n hp p s hi hj hl ha he
    refine build_preserves (p := p) (Prog.only_true _) hp (demandsKept_init p) ?_ (demandsKept_own p _) ?_
      hi hj hl ha he
    · intro s _ h
      exact h.weaken (fun _ _ h _ => h) (fun _ h => h) (fun _ _ _ h => h)
    · intro s s' v hr hr' he h
      exact demandsKept_end p s' s'.w v hr' (fun C hd => runProg_demands (getA_ok Y n).1 _ hd hr he) h
  · exact demandsKept_init
  · intro s s' hi hr h
    cases hr with
    | inval p c' hd =>
      refine h.weaken ?_ ?_ ?_
      · intro a b hb _; simpa only [Cache.emit, hd.known] using hb
      · intro a ha
        rw [mem_getElem] at ha ⊢
        obtain ⟨v, hv⟩ := ha
        exact ⟨v, ((hd.art_iff _ _).1 hv).1⟩
      · intro u d hu hdep
        rw [mem_getElem] at hu
        obtain ⟨v, hv⟩ := hu
        exact (hd.dep u d).2 ⟨hdep, ((hd.art_iff _ _).1 hv).2⟩
    | purge p c' hd =>
      refine h.weaken ?_ ?_ ?_
      · intro a b hb ha
        grind
      · intro a ha
        rw [mem_getElem] at ha ⊢
        obtain ⟨v, hv⟩ := ha
        exact ⟨v, ((hd.art_iff _ _).1 hv).1⟩
      · intro u d hu hdep
        rw [mem_getElem] at hu
        obtain ⟨v, hv⟩ := hu
        exact (hd.dep u d).2 ⟨hdep, ((hd.art_iff _ _).1 hv).2⟩
    | gc c' l _ _ hsw =>
      have hng : ∀ a, a ∈ c'.artifacts → ¬ Garbage s a := by
        intro a ha hg
        rw [mem_getElem] at ha
        obtain ⟨v, hv⟩ := ha
        rw [hsw.art_none a hg] at hv
        cases hv
      refine h.weaken ?_ ?_ ?_
      · intro a b hb ha
        rw [← hsw.known_keep a (hng a ha)]
        exact hb
      · intro a ha
        exact (mem_of_getElem? (hsw.art_keep a (hng a ha))).1 ha
      · intro u d hu hdep
        exact (hsw.dep u d).2 ⟨hdep, hng u hu⟩
    | mutDeps a c' _ h1 h2 h3 h4 _ _ =>
      refine h.weaken ?_ ?_ ?_
      · intro a b hb _; simpa only [h1] using hb
      · intro a ha
        rw [mem_getElem] at ha ⊢
        obtain ⟨v, hv⟩ := ha
        exact ⟨v, ((h3 _ _).1 hv).1⟩
      · intro u d hu hdep
        rw [mem_getElem] at hu
        obtain ⟨v, hv⟩ := hu
        exact (h4 u d).2 ⟨hdep, ((h3 _ _).1 hv).2⟩
    | write p v f _ _ hv =>
      refine h.weaken (fun _ _ h _ => h) ?_ (fun _ _ _ h => h)
      intro a ha
      simp only [St.onCache, Cache.emit] at ha
      grind
    | clearArtifacts =>
      intro p C _ hm
      simp [St.onCache, clearArtifacts, Cache.emit] at hm
    | clearAll =>
      intro p C _ hm
      simp [St.onCache, clearAll, Cache.emit] at hm
    | alloc q ha =>
      have := allocB_c ha
      exact h.weaken (by rw [this]; exact fun _ _ h _ => h) (by rw [this]; exact fun _ h => h)
        (by rw [this]; exact fun _ _ _ h => h)
    | free a => exact h.weaken (fun _ _ h _ => h) (fun _ h => h) (fun _ _ _ h => h)
    | world w => exact h.weaken (fun _ _ h _ => h) (fun _ h => h) (fun _ _ _ h => h)
  · intro p f s d _ _ _ _ _ _ h
    exact h.weaken (fun _ _ h _ => h) (fun _ h => h) (fun _ _ _ h => h)

theorem demandsKept_hooks (Y : Sys σ) (D : Hooks σ) : HooksPreserve Y (DemandsKept Y) D := by
  refine ⟨?_, fun _ _ h => h⟩
  intro n hp p s hi hj hl ha he
  refine buildH_preserves (p := p) (Prog.only_true _) hp (fun _ _ h => h) (demandsKept_init p) ?_
    (demandsKept_own p _) ?_ hi hj hl ha he
  · intro s _ h
    exact h.weaken (fun _ _ h _ => h) (fun _ h => h) (fun _ _ _ h => h)
  · intro s s' v w hr hr' he h
    exact demandsKept_end p s' w v hr' (fun C hd => runProgH_demands D (getAH_ok Y D n).1 _ hd hr he) h

theorem Reachable.demandsKept (h : Reachable Y s) : DemandsKept Y s :=
  h.preserved (demandsKept_ops Y) (demandsKept_hooks Y) fun w => by
    intro p C _ hm
    simp [St.new] at hm

/-! ## The first resolve of a build -/

/-- `s1` is the state in which the build of `p`, started in `s`, asks for `q`, having done nothing
else. -/
structure Asked (Y : Sys σ) (s s1 : St σ) (p q : Promise σ) : Prop where
  art : s1.c.artifacts = s.c.artifacts
  heap : s1.heap = s.heap
  world : s1.w = s.w
  state : s1.c.dynStates[p.id]? = stateOf Y s p
  states : ∀ a : Id, a ≠ p.id → s1.c.dynStates[a]? = s.c.dynStates[a]?
  uses : ∀ u d, UsesNow s1 u d ↔ UsesNow s u d ∨ (u = p.id ∧ d = q.id)
  log : ∃ l, s1.c.log = .resolve p q :: .call p :: l ∧
    (l = s.c.log ∨ ∃ d, l = .initDyn p (some d) :: s.c.log)

/-- A build of a builder with harmless initial state begins with its code. -/
theorem build_starts (n : Nat) (hi : Inv Y s) {p : Promise σ} (hl : s.live p = true)
    (ha : s.c.artifacts[p.id]? = none) {d : σ.S} (hd : StartsWith Y p d) :
    ∃ s1, Running Y p s1 ∧ s1.c.artifacts = s.c.artifacts ∧ s1.heap = s.heap ∧ s1.w = s.w ∧
      s1.c.dynStates[p.id]? = stateOf Y s p ∧
      (∀ a : Id, a ≠ p.id → s1.c.dynStates[a]? = s.c.dynStates[a]?) ∧
      s1.c.dependents = s.c.dependents ∧
      (∃ l, s1.c.log = .call p :: l ∧ (l = s.c.log ∨ ∃ d, l = .initDyn p (some d) :: s.c.log)) ∧
      (stateOf Y s p).isSome ∧
      buildN Y (n + 1) p s = finish p (runProg Y (getA Y n) p (Y.code p.b) s1) := by
  obtain ⟨ht, hin⟩ := hd
  have hst : (ensureDyn Y p s).1.w = s.w ∧
      (∃ d', (ensureDyn Y p s).2 = .val d' ∧ stateOf Y s p = some d') ∧
      ((ensureDyn Y p s).1.c.log = s.c.log ∨
        ∃ d, (ensureDyn Y p s).1.c.log = .initDyn p (some d) :: s.c.log) := by
    have hi1 := hi.micro (.known p hl)
    have hk := hi.live_known hl
    unfold ensureDyn stateOf
    simp only
    have hds : (s.onCache (makeKnown p)).c.dynStates[p.id]? = s.c.dynStates[p.id]? := by
      simp [St.onCache]
    cases hx : s.c.dynStates[p.id]? with
    | some d' =>
      rw [hx] at hds
      simp only [hds, hi1.dynTy _ _ _ hds hk, if_true]
      exact ⟨rfl, ⟨d', rfl, rfl⟩, Or.inl (makeKnown_log _ _)⟩
    | none =>
      rw [hx] at hds
      simp only [hds, hin, ht, if_true]
      exact ⟨rfl, ⟨d, rfl, rfl⟩, Or.inr ⟨d, by simp [St.onCache, Cache.emit]⟩⟩
  obtain ⟨hw, ⟨d', hv, hs'⟩, hlog⟩ := hst
  obtain ⟨h1, h2, h3, h4, h5⟩ := ensureDyn_same (Y := Y) p s
  rcases build_cases (getA Y n) hi hl ha with ⟨s1, e1, e2⟩ | ⟨s1, e1, e2⟩ | ⟨s1, d1, e1, e2⟩
  · rw [e1] at hv; cases hv
  · rw [e1] at hv; cases hv
  · obtain ⟨hr, _, _, hd1⟩ := ensureDyn_running hi hl ha e1
    rw [e1] at h1 h2 h3 h4 h5 hw hv hlog
    cases hv
    refine ⟨entered p s1, hr, h1, h4, hw, ?_, h5, h2, ⟨s1.c.log, rfl, hlog⟩, by rw [hs']; rfl, e2⟩
    rw [hd1, hs']

theorem build_asks (n : Nat) (hi : Inv Y s) {p q : Promise σ} (hl : s.live p = true)
    (hq : s.live q = true) (ha : s.c.artifacts[p.id]? = none) {d : σ.S} (hd : StartsWith Y p d)
    {how : Access} {k : Except σ.E σ.V → Prog σ} (hc : Y.code p.b = .resolve how q k) :
    ∃ s1, Asked Y s s1 p q ∧ Running Y p s1 ∧ s1.live q = true ∧
      buildN Y (n + 1) p s =
        finish p (andThen (getA Y n how q s1) fun r s => runProg Y (getA Y n) p (k r) s) := by
  obtain ⟨s1, hr, h1, h2, h3, h4, h5, h6, ⟨l, h7, h8⟩, _, h9⟩ := build_starts n hi hl ha hd
  have hq1 : s1.live q = true := by simpa only [St.live, h2] using hq
  refine ⟨tracked p q s1, ⟨?_, h2, h3, ?_, ?_, ?_, l, ?_, h8⟩, hr.micros (hr.tracked hq1), hq1, ?_⟩
  · simpa [tracked, St.onCache, addEdge, Cache.emit] using h1
  · simpa [tracked, St.onCache, addEdge, Cache.emit] using h4
  · intro a ha
    simpa [tracked, St.onCache, addEdge, Cache.emit] using h5 a ha
  · intro u d
    simp only [usesNow_iff, tracked, St.onCache, addEdge_dep]
    simp only [Dep, makeKnown_dependents, h6]
  · simp [tracked, St.onCache, addEdge, Cache.emit, h7]
  · rw [h9, hc, runProg_resolve hr hq1]

end Daab
