import Verif.Wrap
import Verif.Props1

/-! # Lemmas for the leaf builders: invariants about one builder -/

open Std

namespace Daab

variable {σ : Sig} {Y : Sys σ} {s : St σ}

/-! ## The dependencies recorded are ones the code can have -/

/-- If the code of `p` only resolves promises in `L`, then its recorded dependencies are in `L`. -/
def OnlyUses (p : Promise σ) (L : Promise σ → Prop) (s : St σ) : Prop :=
  s.c.known[p.id]? = some p.b → ∀ d, Dep s.c p.id d → ∃ q, L q ∧ q.id = d

theorem OnlyUses.weaken {p : Promise σ} {L : Promise σ → Prop} {s' : St σ} (h : OnlyUses p L s)
    (hk : s'.c.known[p.id]? = some p.b → (∃ d, Dep s'.c p.id d) → s.c.known[p.id]? = some p.b)
    (hd : ∀ d, Dep s'.c p.id d → Dep s.c p.id d) : OnlyUses p L s' :=
  fun h1 d h2 => h (hk h1 ⟨d, h2⟩) d (hd d h2)

theorem makeKnown_dep (hi : Inv Y s) {q : Promise σ} {a d : Id} {b : σ.B}
    (h : (makeKnown q s.c).known[a]? = some b) (hd : Dep s.c a d) : s.c.known[a]? = some b := by
  have hk := hi.depU _ _ hd
  rw [mem_getElem] at hk
  obtain ⟨b', hb'⟩ := hk
  rw [makeKnown_getElem] at h
  grind

theorem onlyUses_init (p0 : Promise σ) (L : Promise σ → Prop) (p : Promise σ) (s : St σ) (hi : Inv Y s)
    (_hl : s.live p = true) (h : OnlyUses p0 L s) (_he : (ensureDyn Y p s).2.ended) :
    OnlyUses p0 L (ensureDyn Y p s).1 := by
  obtain ⟨_, h2, h3, _⟩ := ensureDyn_same (Y := Y) p s
  have hdep : ∀ u d, Dep (ensureDyn Y p s).1.c u d ↔ Dep s.c u d := by
    intro u d; simp only [Dep, h2]
  refine h.weaken ?_ fun d hd => (hdep _ _).1 hd
  rintro hk ⟨d, hd⟩
  rw [h3] at hk
  exact makeKnown_dep hi hk ((hdep _ _).1 hd)

theorem onlyUses_own (p0 : Promise σ) (L : Promise σ → Prop) (p : Promise σ) (L' : Promise σ → Prop)
    (hL : p.id = p0.id → p.b = p0.b → ∀ q, L' q → L q) (s s' : St σ) (hr : Running Y p s)
    (ho : OwnStep Y L' p s s') (h : OnlyUses p0 L s) : OnlyUses p0 L s' := by
  cases ho with
  | track q hq hl =>
    intro hk d hd
    by_cases hp : p.id = p0.id
    · have hk' := (hr.micros (hr.tracked hl)).known
      rw [hp, hk] at hk'
      have hb := Option.some.inj hk'
      simp only [tracked, St.onCache, addEdge_dep] at hd
      rcases hd with hd | ⟨_, rfl⟩
      · have hd : Dep s.c p0.id d := by simpa [Dep] using hd
        refine h ?_ d hd
        rw [← hp, hr.known, hb]
      · exact ⟨q, hL hp hb.symm q hq, rfl⟩
    · simp only [tracked, St.onCache, addEdge_dep] at hd
      rcases hd with hd | ⟨h1, _⟩
      · have hd : Dep s.c p0.id d := by simpa [Dep] using hd
        exact h (makeKnown_dep hr.inv hk hd) d hd
      · exact absurd h1.symm hp
  | wrote d _ => exact h
  | world w => exact h
  | alloc q ha =>
    have := allocB_c ha
    unfold OnlyUses
    rw [this]
    exact h
  | free a => exact h

theorem onlyUses_ops (p0 : Promise σ) (L : Promise σ → Prop) (ho : (Y.code p0.b).only L) :
    OpsPreserve Y (OnlyUses p0 L) fun _ => True := by
  have hinit := onlyUses_init (Y := Y) p0 L
  have hstep := onlyUses_own (Y := Y) p0 L
  constructor
  · intro n hp p s hi hj hl ha he
    by_cases hpb : p.b = p0.b
    · refine build_preserves (p := p) (L := L) (by rw [hpb]; exact ho) hp (hinit p) (fun _ _ h => h)
        (hstep p L fun _ _ _ h => h) (fun _ _ _ _ _ _ h => h) hi hj hl ha he
    · refine build_preserves (p := p) (Prog.only_true _) hp (hinit p) (fun _ _ h => h)
        (hstep p _ fun _ h => absurd h hpb) (fun _ _ _ _ _ _ h => h) hi hj hl ha he
  · exact hinit
  · intro s s' hi hr h
    cases hr with
    | inval p c' hd =>
      refine h.weaken ?_ ?_
      · intro hb _; simpa only [Cache.emit, hd.known] using hb
      · intro d hdep; exact ((hd.dep _ d).1 hdep).1
    | purge p c' hd =>
      refine h.weaken ?_ ?_
      · intro hb _; grind
      · intro d hdep; exact ((hd.dep _ d).1 hdep).1
    | gc c' l _ _ hsw =>
      refine h.weaken ?_ ?_
      · rintro hb ⟨d, hdep⟩
        rw [← hsw.known_keep _ ((hsw.dep _ d).1 hdep).2]
        exact hb
      · intro d hdep; exact ((hsw.dep _ d).1 hdep).1
    | mutDeps a c' _ h1 h2 h3 h4 _ _ =>
      refine h.weaken ?_ ?_
      · intro hb _; simpa only [h1] using hb
      · intro d hdep; exact ((h4 _ d).1 hdep).1
    | write p v f _ _ hv => exact h
    | clearArtifacts =>
      intro _ d hd
      simp [St.onCache, clearArtifacts, Cache.emit, Dep, setAt] at hd
    | clearAll =>
      intro _ d hd
      simp [St.onCache, clearAll, Cache.emit, Dep, setAt] at hd
    | alloc q ha =>
      have := allocB_c ha
      unfold OnlyUses
      rw [this]
      exact h
    | free a => exact h
    | world f _ => exact h
  · intro p f s d _ _ _ _ _ _ h
    exact h

theorem onlyUses_hooks (p0 : Promise σ) (L : Promise σ → Prop) (ho : (Y.code p0.b).only L) :
    ∀ D, HooksPreserve Y (OnlyUses p0 L) D := by
  intro D
  refine ⟨?_, fun _ _ h => h⟩
  intro n hp p s hi hj hl ha he
  by_cases hpb : p.b = p0.b
  · exact buildH_preserves (p := p) (L := L) (by rw [hpb]; exact ho) hp (fun _ _ h => h) (onlyUses_init p0 L p)
      (fun _ _ h => h) (onlyUses_own p0 L p L fun _ _ _ h => h) (fun _ _ _ _ _ _ _ h => h) hi hj hl ha he
  · exact buildH_preserves (p := p) (Prog.only_true _) hp (fun _ _ h => h) (onlyUses_init p0 L p)
      (fun _ _ h => h) (onlyUses_own p0 L p _ fun _ h => absurd h hpb) (fun _ _ _ _ _ _ _ h => h) hi hj hl ha he

theorem Reachable.onlyUses (h : Reachable Y s) {p : Promise σ} {L : Promise σ → Prop}
    (ho : (Y.code p.b).only L) : OnlyUses p L s :=
  h.preserved (onlyUses_ops p L ho) (onlyUses_hooks p L ho) fun w => by
    intro hk
    simp [St.new] at hk

/-- A getter answers artifacts of the right type. -/
theorem getA_ty (hi : Inv Y s) {n : Nat} {how : Access} {q : Promise σ} {v : σ.V}
    (h : (getA Y n how q s).2 = .val (.ok v)) :
    ∃ v0, (getA Y n how q s).1.c.artifacts[q.id]? = some v0 ∧ v = seen Y how v0 ∧
      Y.artTy v0 = Y.vty q.b := (getA_ok Y n).1.ok how q s hi v h

/-! ## The artifact as a function of the dynamic state -/

/-- The artifact of `p` is `F` of its dynamic state. -/
def IsFn (p : Promise σ) (F : σ.S → σ.V) (s : St σ) : Prop :=
  s.c.known[p.id]? = some p.b → ∀ v d, s.c.artifacts[p.id]? = some v → s.c.dynStates[p.id]? = some d →
    v = F d

theorem IsFn.weaken {p : Promise σ} {F : σ.S → σ.V} {s' : St σ} (h : IsFn p F s)
    (hk : ∀ v d, s'.c.known[p.id]? = some p.b → s'.c.artifacts[p.id]? = some v →
      s'.c.dynStates[p.id]? = some d →
      s.c.known[p.id]? = some p.b ∧ s.c.artifacts[p.id]? = some v ∧ s.c.dynStates[p.id]? = some d) :
    IsFn p F s' := by
  intro h1 v d h2 h3
  obtain ⟨h4, h5, h6⟩ := hk v d h1 h2 h3
  exact h h4 v d h5 h6

theorem isFn_init (p0 : Promise σ) (F : σ.S → σ.V) : ∀ p s, Inv Y s → s.live p = true → IsFn p0 F s →
    (ensureDyn Y p s).2.ended → IsFn p0 F (ensureDyn Y p s).1 := by
  intro p s hi hl h _
  obtain ⟨h1, h2, h3, _, h5⟩ := ensureDyn_same (Y := Y) p s
  refine h.weaken fun v d hk ha hd => ?_
  rw [h1] at ha
  rw [h3] at hk
  have hk' := makeKnown_art hi hk ((mem_getElem _ _).2 ⟨v, ha⟩)
  refine ⟨hk', ha, ?_⟩
  by_cases hp : p0.id = p.id
  · obtain ⟨d', hd'⟩ := (mem_getElem _ _).1 (hi.artDyn _ ((mem_getElem _ _).2 ⟨v, ha⟩))
    have : (ensureDyn Y p s).1.c.dynStates[p0.id]? = some d' := by
      unfold ensureDyn
      simp only
      rw [hp] at hd' ⊢
      have hds : (s.onCache (makeKnown p)).c.dynStates[p.id]? = some d' := by
        simpa [St.onCache] using hd'
      simp only [hds]
    rw [this] at hd
    cases hd
    exact hd'
  · rwa [h5 _ hp] at hd

theorem isFn_own (p0 : Promise σ) (F : σ.S → σ.V) (p : Promise σ) (hpid : ¬ p.id = p0.id) (L : Promise σ → Prop) :
    ∀ s s', Running Y p s → OwnStep Y L p s s' → IsFn p0 F s → IsFn p0 F s' := by
  intro s s' hr ho h
  cases ho with
  | track q _ hlq =>
    refine h.weaken fun v d hk ha hd => ?_
    have ha' : s.c.artifacts[p0.id]? = some v := by
      simpa [tracked, St.onCache, addEdge, Cache.emit] using ha
    have hd' : s.c.dynStates[p0.id]? = some d := by
      simpa [tracked, St.onCache, addEdge, Cache.emit] using hd
    exact ⟨makeKnown_art hr.inv (p := q) hk ((mem_getElem _ _).2 ⟨v, ha'⟩), ha', hd'⟩
  | wrote d _ =>
    refine h.weaken fun v d' hk ha hd => ⟨hk, ha, ?_⟩
    simp only [wrote, Cache.emit] at hd
    grind
  | world w => exact h
  | alloc q ha =>
    have := allocB_c ha
    unfold IsFn
    rw [this]
    exact h
  | free a => exact h

theorem isFn_ops (p0 : Promise σ) (F : σ.S → σ.V)
    (hb : ∀ n s, Inv Y s → s.live p0 = true → s.c.artifacts[p0.id]? = none →
      IsFn p0 F (build Y (getA Y n) p0 s).1) :
    OpsPreserve Y (IsFn p0 F) fun op => ∀ p f, op = .getMut p f ∨ op = .lookupMut p f → p.id ≠ p0.id := by
  have hinit := isFn_init (Y := Y) p0 F
  constructor
  · intro n hp p s hi hj hl ha he
    by_cases hpid : p.id = p0.id
    · by_cases hpb : p.b = p0.b
      · have : p = p0 := by cases p; cases p0; simp_all
        subst this
        exact hb n s hi hl ha
      · intro hk
        have := build_known (getA_ok Y n).1 hi hl ha
        rw [hpid, hk] at this
        exact absurd (Option.some.inj this).symm hpb
    · refine build_preserves (p := p) (Prog.only_true _) hp (hinit p) (fun _ _ h => h) ?_ ?_ hi hj hl ha he
      · exact isFn_own p0 F p hpid _
      · intro s s' v hr hr' he h
        refine h.weaken fun v' d hk ha hd => ⟨hk, ?_, hd⟩
        rw [finish_artifacts (fun h => hpid h.symm)] at ha
        exact ha
  · exact hinit
  · intro s s' hi hr h
    cases hr with
    | inval p c' hd =>
      refine h.weaken fun v d hk ha hdy => ⟨?_, ((hd.art_iff _ _).1 ha).1, ?_⟩
      · simpa only [Cache.emit, hd.known] using hk
      · simpa only [Cache.emit, hd.dynStates] using hdy
    | purge p c' hd =>
      refine h.weaken fun v d hk ha hdy => ⟨?_, ((hd.art_iff _ _).1 ha).1, ?_⟩
      · grind
      · grind
    | gc c' l _ _ hsw =>
      refine h.weaken fun v d hk ha hdy => ?_
      have hng : ¬ Garbage s p0.id := fun hg => by
        simp only at ha
        rw [hsw.art_none _ hg] at ha
        cases ha
      exact ⟨by rw [← hsw.known_keep _ hng]; exact hk, by rw [← hsw.art_keep _ hng]; exact ha,
        by rw [← hsw.dyn_keep _ hng]; exact hdy⟩
    | mutDeps a c' _ h1 h2 h3 h4 _ _ =>
      refine h.weaken fun v d hk ha hdy => ⟨?_, ((h3 _ _).1 ha).1, ?_⟩
      · simpa only [h1] using hk
      · simpa only [h2] using hdy
    | write p v f hA _ hv =>
      have hne : p.id ≠ p0.id := by
        rcases hA with h | h
        · exact h p f (.inl rfl)
        · exact h p f (.inr rfl)
      refine h.weaken fun v d hk ha hdy => ⟨hk, ?_, hdy⟩
      simp only [St.onCache, Cache.emit] at ha
      grind
    | clearArtifacts =>
      intro _ v d ha
      simp [St.onCache, clearArtifacts, Cache.emit] at ha
    | clearAll =>
      intro _ v d ha
      simp [St.onCache, clearAll, Cache.emit] at ha
    | alloc q ha =>
      have := allocB_c ha
      unfold IsFn
      rw [this]
      exact h
    | free a => exact h
    | world f _ => exact h
  · intro p f s d _ _ _ hnone _ _ h
    refine h.weaken fun v d' hk ha hd => ⟨hk, ha, ?_⟩
    simp only [wrote, Cache.emit] at hd ha
    grind

theorem isFn_hooks (p0 : Promise σ) (F : σ.S → σ.V)
    (hb : ∀ D n s, Inv Y s → s.live p0 = true → s.c.artifacts[p0.id]? = none →
      IsFn p0 F (buildH Y D (getAH Y D n) p0 s).1) (D : Hooks σ) : HooksPreserve Y (IsFn p0 F) D := by
  refine ⟨?_, fun _ _ h => h⟩
  intro n hp p s hi hj hl ha he
  by_cases hpid : p.id = p0.id
  · by_cases hpb : p.b = p0.b
    · have : p = p0 := by cases p; cases p0; simp_all
      subst this
      exact hb D n s hi hl ha
    · intro hk
      have := buildH_known D (getAH_ok Y D n).1 hi hl ha
      rw [hpid, hk] at this
      exact absurd (Option.some.inj this).symm hpb
  · refine buildH_preserves (p := p) (Prog.only_true _) hp (fun _ _ h => h) (isFn_init p0 F p) (fun _ _ h => h)
      (isFn_own p0 F p hpid _) ?_ hi hj hl ha he
    intro s s' v w hr hr' he h
    refine h.weaken fun v' d hk ha hd => ⟨hk, ?_, hd⟩
    rw [finish_artifacts (fun h => hpid h.symm)] at ha
    exact ha

end Daab
