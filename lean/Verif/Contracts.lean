import Verif.Redeem

/-!
# C48: contracts

If each builder keeps its contract, provided that what it resolves keeps its own, then everything the
cache ever hands out is according to contract.
-/

open Std

namespace Daab

variable {σ : Sig} {Y : Sys σ} {s : St σ}

/-! ## Vocabulary -/

/-- What is promised of the artifacts, errors and dynamic states of each builder, and of the outside
world. -/
structure Contract (σ : Sig) where
  art : σ.B → σ.V → Prop
  err : σ.B → σ.E → Prop
  state : σ.B → σ.S → Prop
  world : σ.W → Prop

/-- The result of a build of `b` is according to contract. -/
def Contract.result (K : Contract σ) (b : σ.B) : Except σ.E σ.V → Prop
  | .ok v => K.art b v
  | .error e => K.err b e

/-- The code of the builder `b` keeps the contract if it may rely on what it gets from others (resolved
results, its own state, the world) to be according to contract. -/
def Prog.keeps (Y : Sys σ) (K : Contract σ) (b : σ.B) : Prog σ → Prop
  | .ret r => K.result b r
  | .panic => True
  | .resolve how q k =>
    (∀ v, K.art q.b v → (k (.ok (seen Y how v))).keeps Y K b) ∧
    ∀ e, K.err q.b e → (k (.error e)).keeps Y K b
  | .myState f k => ∀ d, K.state b d → K.state b (f d) ∧ (k d).keeps Y K b
  | .world f k => ∀ w, K.world w → K.world (f w) ∧ (k w).keeps Y K b
  | .alloc _ k => k.keeps Y K b
  | .free _ k => k.keeps Y K b

/-- All builders keep the contract. -/
structure Contract.Kept (K : Contract σ) (Y : Sys σ) : Prop where
  code : ∀ b, (Y.code b).keeps Y K b
  init : ∀ b w, K.world w → K.world (Y.init b w).1 ∧ ∀ d, (Y.init b w).2 = some d → K.state b d

/-- What the program itself writes (to artifacts, dynamic states and the world) is according to
contract. -/
def Op.keeps (K : Contract σ) : Op σ → Prop
  | .getMut p f | .lookupMut p f => ∀ v, K.art p.b v → K.art p.b (f v)
  | .dynStateMut p f => ∀ d, K.state p.b d → K.state p.b (f d)
  | .world f => ∀ w, K.world w → K.world (f w)
  | _ => True

/-- The answer of an operation is according to contract. -/
def Contract.answer (K : Contract σ) (Y : Sys σ) : Op σ → Ans σ → Prop
  | .get how p, .art (.ok w) => ∃ v, w = seen Y how v ∧ K.art p.b v
  | .get _ p, .art (.error e) => K.err p.b e
  | .getMut p _, .art r => K.result p.b r
  | .lookup how p, .optArt (some w) => ∃ v, w = seen Y how v ∧ K.art p.b v
  | .lookupMut p _, .optArt (some v) => K.art p.b v
  | .dynState p, .state d => K.state p.b d
  | .dynStateMut p _, .state d => K.state p.b d
  | .getDynState p, .optState (some d) => K.state p.b d
  | _, _ => True

/-- The states of programs that keep the contract. -/
inductive UnderContract (Y : Sys σ) (K : Contract σ) : St σ → Prop
  | new (w : σ.W) : K.world w → UnderContract Y K (St.new w)
  | step {s : St σ} (n : Nat) (ord : HashOrder) (op : Op σ) : UnderContract Y K s → op.keeps K →
      (step Y n ord s op).2.goesOn → UnderContract Y K (step Y n ord s op).1
  | hooked {s : St σ} (D : Hooks σ) (n : Nat) (ord : HashOrder) (op : Op σ) : UnderContract Y K s →
      op.keeps K → (∀ w h, K.world w → K.world (D w h).1) →
      (stepH Y D n ord s op).2.goesOn → UnderContract Y K (stepH Y D n ord s op).1

theorem UnderContract.reachable {K : Contract σ} (h : UnderContract Y K s) : Reachable Y s := by
  induction h with
  | new w _ => exact .new w
  | step n ord op _ _ hg ih => exact .step n ord op ih hg
  | hooked D n ord op _ _ _ hg ih => exact .hooked D n ord op ih hg

/-! ## Proofs -/

/-- All that is held is according to contract. -/
structure Holds (K : Contract σ) (s : St σ) : Prop where
  art : ∀ (a : Id) b v, s.c.known[a]? = some b → s.c.artifacts[a]? = some v → K.art b v
  state : ∀ (a : Id) b d, s.c.known[a]? = some b → s.c.dynStates[a]? = some d → K.state b d
  world : K.world s.w

theorem Holds.weaken {K : Contract σ} {s' : St σ} (h : Holds K s)
    (ha : ∀ (a : Id) b v, s'.c.known[a]? = some b → s'.c.artifacts[a]? = some v →
      s.c.known[a]? = some b ∧ s.c.artifacts[a]? = some v)
    (hd : ∀ (a : Id) b d, s'.c.known[a]? = some b → s'.c.dynStates[a]? = some d →
      s.c.known[a]? = some b ∧ s.c.dynStates[a]? = some d)
    (hw : s'.w = s.w) : Holds K s' where
  art a b v h1 h2 := h.art a b v (ha a b v h1 h2).1 (ha a b v h1 h2).2
  state a b v h1 h2 := h.state a b v (hd a b v h1 h2).1 (hd a b v h1 h2).2
  world := by rw [hw]; exact h.world

theorem Holds.same {K : Contract σ} {s' : St σ} (h : Holds K s) (h1 : s'.c.known = s.c.known)
    (h2 : s'.c.artifacts = s.c.artifacts) (h3 : s'.c.dynStates = s.c.dynStates) (h4 : s'.w = s.w) :
    Holds K s' :=
  h.weaken (fun a b v => by rw [h1, h2]; exact fun x y => ⟨x, y⟩)
    (fun a b v => by rw [h1, h3]; exact fun x y => ⟨x, y⟩) h4

theorem makeKnown_dyn (hi : Inv Y s) {p : Promise σ} {a : Id} {b : σ.B}
    (h : (makeKnown p s.c).known[a]? = some b) (ha : a ∈ s.c.dynStates) : s.c.known[a]? = some b := by
  have hk := hi.dynKnown _ ha
  rw [mem_getElem] at hk
  obtain ⟨b', hb'⟩ := hk
  rw [makeKnown_getElem] at h
  grind

theorem Holds.makeKnown {K : Contract σ} (h : Holds K s) (hi : Inv Y s) (p : Promise σ) :
    Holds K (s.onCache (makeKnown p)) :=
  h.weaken (fun a b v h1 h2 => by
      have h2' : s.c.artifacts[a]? = some v := by simpa [St.onCache] using h2
      exact ⟨makeKnown_art hi h1 ((mem_getElem _ _).2 ⟨v, h2'⟩), h2'⟩)
    (fun a b v h1 h2 => by
      have h2' : s.c.dynStates[a]? = some v := by simpa [St.onCache] using h2
      exact ⟨makeKnown_dyn hi h1 ((mem_getElem _ _).2 ⟨v, h2'⟩), h2'⟩) rfl

theorem Holds.wrote {K : Contract σ} (h : Holds K s) {p : Promise σ} {d : σ.S}
    (hk : s.c.known[p.id]? = some p.b) (hd : K.state p.b d) : Holds K (wrote p d s) where
  art := h.art
  state a b d' h1 h2 := by
    simp only [Daab.wrote, Cache.emit] at h1 h2
    rw [ExtTreeMap.getElem?_insert] at h2
    split at h2
    · next he =>
      have : p.id = a := by simpa using he
      subst this
      cases h2
      rw [hk] at h1
      cases h1
      exact hd
    · exact h.state a b d' h1 h2
  world := h.world

theorem Holds.ensureDyn {K : Contract σ} (hK : K.Kept Y) (h : Holds K s) (hi : Inv Y s)
    {p : Promise σ} (hl : s.live p = true) :
    Holds K (ensureDyn Y p s).1 ∧ ∀ d, (Daab.ensureDyn Y p s).2 = .val d → K.state p.b d := by
  have h1 := h.makeKnown hi p
  have hk : (s.onCache (Daab.makeKnown p)).c.known[p.id]? = some p.b := hi.live_known hl
  unfold Daab.ensureDyn
  generalize s.onCache (Daab.makeKnown p) = s1 at h1 hk
  simp only
  cases hd : s1.c.dynStates[p.id]? with
  | some d =>
    refine ⟨h1, ?_⟩
    intro d' hd'
    simp only at hd'
    split at hd'
    · cases hd'; exact h1.state _ _ _ hk hd
    · cases hd'
  | none =>
    simp only
    have hin := hK.init p.b s1.w h1.world
    generalize Y.init p.b s1.w = wd at hin
    obtain ⟨w, o⟩ := wd
    cases o with
    | none => exact ⟨⟨h1.art, h1.state, hin.1⟩, by intro d hd; cases hd⟩
    | some d =>
      simp only
      split
      · refine ⟨⟨h1.art, ?_, hin.1⟩, ?_⟩
        · intro a b d' h2 h3
          simp only [Cache.emit] at h2 h3
          rw [ExtTreeMap.getElem?_insert] at h3
          split at h3
          · next he =>
            have : p.id = a := by simpa using he
            subst this
            cases h3
            rw [hk] at h2
            cases h2
            exact hin.2 d rfl
          · exact h1.state a b d' h2 h3
        · intro d' hd'; cases hd'; exact hin.2 d rfl
      · exact ⟨h1, by intro d hd; cases hd⟩

/-- The getter keeps the contract. -/
def GetKeeps (Y : Sys σ) (K : Contract σ) (g : Getter σ) : Prop :=
  ∀ how p s, Inv Y s → Holds K s → Holds K (g how p s).1 ∧
    ∀ r, (g how p s).2 = .val r → ∃ r0, K.result p.b r0 ∧ r = r0.map (seen Y how)

/-- So does the build function. -/
def BuildKeeps (Y : Sys σ) (K : Contract σ) (bld : BuildFn σ) : Prop :=
  ∀ p s, Inv Y s → s.live p = true → s.c.artifacts[p.id]? = none → Holds K s →
    Holds K (bld p s).1 ∧ ∀ r, (bld p s).2 = .val r → K.result p.b r

theorem runProg_keeps {K : Contract σ} {g : Getter σ} (hg : GetOk Y g) (hk : GetKeeps Y K g)
    {p : Promise σ} (prog : Prog σ) (hp : prog.keeps Y K p.b) (hr : Running Y p s) (h : Holds K s) :
    Holds K (runProg Y g p prog s).1 ∧ ∀ r, (runProg Y g p prog s).2 = .val r → K.result p.b r := by
  induction prog generalizing s with
  | ret r =>
    cases r with
    | error e => exact ⟨h, by intro r hr; cases hr; exact hp⟩
    | ok v =>
      refine ⟨h, ?_⟩
      intro r hr
      simp only [runProg] at hr
      split at hr
      · cases hr; exact hp
      · cases hr
  | panic => exact ⟨h, by intro r hr; cases hr⟩
  | resolve how q k ih =>
    cases hl : s.live q with
    | false => rw [runProg_resolve_dead hl]; exact ⟨h, by intro r hr; cases hr⟩
    | true =>
      rw [runProg_resolve hr hl]
      have hr1 := hr.micros (hr.tracked hl)
      have h1 : Holds K (tracked p q s) :=
        (h.makeKnown hr.inv q).same rfl rfl rfl rfl
      have h2 := hk how q _ hr1.inv h1
      have m2 := (hg.ran how q _ hr1.inv).micros
      generalize g how q (tracked p q s) = x at h2 m2
      obtain ⟨s2, r⟩ := x
      cases r with
      | val r =>
        obtain ⟨r0, hr0, he⟩ := h2.2 r rfl
        refine ih r ?_ (hr1.micros m2) h2.1
        cases r0 with
        | ok v => subst he; exact hp.1 v hr0
        | error e => subst he; exact hp.2 e hr0
      | panic k => exact ⟨h2.1, by intro r hr; cases hr⟩
      | stuck => exact ⟨h2.1, by intro r hr; cases hr⟩
      | overflow => exact ⟨h2.1, by intro r hr; cases hr⟩
  | myState f k ih =>
    obtain ⟨d, hd0, ⟨_, e⟩ | ⟨m, e⟩⟩ := runProg_myState_cases hr g f k
    · rw [e]; exact ⟨h, by intro r hr; cases hr⟩
    · rw [e]
      have hd := hp d (h.state _ _ _ hr.known hd0)
      exact ih d hd.2 (hr.micro m) (h.wrote hr.known hd.1)
  | world f k ih =>
    have hw := hp s.w h.world
    exact ih s.w hw.2 (hr.micro (.world _)) ⟨h.art, h.state, hw.1⟩
  | alloc q k ih =>
    simp only [runProg]
    cases ha : allocB q s with
    | none => exact ⟨h, by intro r hr; cases hr⟩
    | some s' =>
      refine ih hp (hr.micro (.alloc q ha)) ?_
      have hc := allocB_c ha
      refine h.same (by rw [hc]) (by rw [hc]) (by rw [hc]) ?_
      unfold allocB at ha
      split at ha
      · cases ha
      · cases ha; rfl
  | free a k ih => exact ih hp (hr.micro (.free a)) (h.same rfl rfl rfl rfl)

theorem build_keeps {K : Contract σ} (hK : K.Kept Y) {g : Getter σ} (hg : GetOk Y g)
    (hk : GetKeeps Y K g) : BuildKeeps Y K (build Y g) := by
  intro p s hi hl ha h
  have h1 := h.ensureDyn hK hi hl
  rcases build_cases g hi hl ha with ⟨s1, e1, e2⟩ | ⟨s1, e1, e2⟩ | ⟨s1, d, e1, e2⟩
  · rw [e2]; rw [e1] at h1; exact ⟨h1.1, by intro r hr; cases hr⟩
  · rw [e2]; rw [e1] at h1; exact ⟨h1.1, by intro r hr; cases hr⟩
  · rw [e1] at h1
    rw [e2]
    obtain ⟨hr, _, _, _⟩ := ensureDyn_running hi hl ha e1
    have h2 : Holds K (entered p s1) := h1.1.same rfl rfl rfl rfl
    have h3 := runProg_keeps hg hk (Y.code p.b) (hK.code p.b) hr h2
    have h4 := hr.micros (hr.run hg (Y.code p.b)).micros
    generalize runProg Y g p (Y.code p.b) (entered p s1) = x at h3 h4
    obtain ⟨s', r⟩ := x
    rcases r with (e | v) | k | _ | _
    · exact h3
    · refine ⟨?_, h3.2⟩
      have hv := h3.2 _ rfl
      constructor
      · intro a b v' h5 h6
        simp only [finish, St.onCache, Cache.emit] at h5 h6
        rw [ExtTreeMap.getElem?_insert] at h6
        split at h6
        · next he =>
          have : p.id = a := by simpa using he
          subst this
          cases h6
          rw [h4.known] at h5
          cases h5
          exact hv
        · exact h3.1.art a b v' h5 h6
      · exact h3.1.state
      · exact h3.1.world
    · exact h3
    · exact h3
    · exact h3

theorem buildN_keeps {K : Contract σ} (hK : K.Kept Y) (n : Nat) :
    BuildKeeps Y K (buildN Y n) ∧ GetKeeps Y K (getA Y n) := by
  have key : ∀ n, BuildKeeps Y K (buildN Y n) → GetKeeps Y K (getA Y n) := by
    intro n hb how p s hi h
    cases hl : s.live p with
    | false => rw [getA_dead n how hl]; exact ⟨h, by intro r hr; cases hr⟩
    | true =>
      cases ha : s.c.artifacts[p.id]? with
      | some v =>
        rw [getA_hit n how hi hl ha]
        refine ⟨h, ?_⟩
        intro r hr
        cases hr
        exact ⟨.ok v, h.art _ _ _ (hi.live_art_known hl ha) ha, rfl⟩
      | none =>
        rw [getA_miss n how hi hl ha]
        have h1 := hb p s hi hl ha h
        refine ⟨h1.1, ?_⟩
        intro r hr
        have h2 := h1.2
        simp only at hr
        generalize (buildN Y n p s).2 = r' at hr h2
        rcases r' with (e | v) | _ | _ | _
        · cases hr; exact ⟨.error e, h2 _ rfl, rfl⟩
        · cases hr; exact ⟨.ok v, h2 _ rfl, rfl⟩
        · cases hr
        · cases hr
        · cases hr
  induction n with
  | zero =>
    have h : BuildKeeps Y K (buildN Y 0) := fun p s _ _ _ h => ⟨h, by intro r hr; cases hr⟩
    exact ⟨h, key 0 h⟩
  | succ n ih =>
    have h : BuildKeeps Y K (buildN Y (n + 1)) := build_keeps hK (getA_ok Y n).1 ih.2
    exact ⟨h, key _ h⟩

theorem holds_ops {K : Contract σ} (hK : K.Kept Y) : OpsPreserve Y (Holds K) (Op.keeps K) := by
  constructor
  · intro n _ p s hi hj hl ha _
    exact ((buildN_keeps hK (n + 1)).1 p s hi hl ha hj).1
  · intro p s hi hl hj _
    exact (hj.ensureDyn hK hi hl).1
  · intro s s' hi hr h
    cases hr with
    | inval p c' hd =>
      refine h.weaken ?_ ?_ rfl
      · intro a b v hk ha
        exact ⟨by simpa only [Cache.emit, hd.known] using hk, ((hd.art_iff _ _).1 ha).1⟩
      · intro a b v hk ha
        exact ⟨by simpa only [Cache.emit, hd.known] using hk,
          by simpa only [Cache.emit, hd.dynStates] using ha⟩
    | purge p c' hd =>
      refine h.weaken ?_ ?_ rfl
      · intro a b v hk ha
        refine ⟨?_, ((hd.art_iff _ _).1 ha).1⟩
        simp only at hk
        grind
      · intro a b v hk ha
        simp only at hk ha
        constructor <;> grind
    | gc c' l _ _ hsw =>
      refine h.weaken ?_ ?_ rfl
      · intro a b v hk ha
        have hng : ¬ Garbage s a := fun hg => by
          simp only at ha; rw [hsw.art_none _ hg] at ha; cases ha
        exact ⟨by rw [← hsw.known_keep _ hng]; exact hk, by rw [← hsw.art_keep _ hng]; exact ha⟩
      · intro a b v hk ha
        have hng : ¬ Garbage s a := fun hg => by
          simp only at ha; rw [hsw.dyn_none _ hg] at ha; cases ha
        exact ⟨by rw [← hsw.known_keep _ hng]; exact hk, by rw [← hsw.dyn_keep _ hng]; exact ha⟩
    | mutDeps a c' _ h1 h2 h3 h4 _ _ =>
      refine h.weaken ?_ ?_ rfl
      · intro a b v hk ha
        exact ⟨by simpa only [h1] using hk, ((h3 _ _).1 ha).1⟩
      · intro a b v hk ha
        exact ⟨by simpa only [h1] using hk, by simpa only [h2] using ha⟩
    | write p v f hA hk hv =>
      have hf : ∀ v, K.art p.b v → K.art p.b (f v) := by rcases hA with h | h <;> exact h
      refine ⟨?_, h.state, h.world⟩
      intro a b v' h5 h6
      simp only [St.onCache, Cache.emit] at h5 h6
      rw [ExtTreeMap.getElem?_insert] at h6
      split at h6
      · next he =>
        have : p.id = a := by simpa using he
        subst this
        cases h6
        rw [hk] at h5
        cases h5
        exact hf v (h.art _ _ _ hk hv)
      · exact h.art a b v' h5 h6
    | clearArtifacts =>
      refine ⟨?_, h.state, h.world⟩
      intro a b v _ ha
      simp [St.onCache, clearArtifacts, Cache.emit] at ha
    | clearAll =>
      refine ⟨?_, ?_, h.world⟩
      · intro a b v _ ha
        simp [St.onCache, clearAll, Cache.emit] at ha
      · intro a b v _ ha
        simp [St.onCache, clearAll, Cache.emit] at ha
    | alloc q ha =>
      have hc := allocB_c ha
      refine h.same (by rw [hc]) (by rw [hc]) (by rw [hc]) ?_
      unfold allocB at ha
      split at ha
      · cases ha
      · cases ha; rfl
    | free a => exact h.same rfl rfl rfl rfl
    | world f hf => exact ⟨h.art, h.state, hf _ h.world⟩
  · intro p f s d hA hi hk _ hd _ h
    exact h.wrote hk (hA d (h.state _ _ _ hk hd))

/-! ### With hooks -/

theorem Holds.hook {K : Contract σ} (h : Holds K s) {w : σ.W} (hw : K.world w) : Holds K { s with w := w } :=
  ⟨h.art, h.state, hw⟩

theorem runProgH_keeps {K : Contract σ} {D : Hooks σ} (hD : ∀ w h, K.world w → K.world (D w h).1)
    {g : Getter σ} (hg : GetRan Y g) (hk : GetKeeps Y K g)
    {p : Promise σ} (prog : Prog σ) (hp : prog.keeps Y K p.b) (hr : Running Y p s) (h : Holds K s) :
    Holds K (runProgH Y D g p prog s).1 ∧ ∀ r, (runProgH Y D g p prog s).2 = .val r → K.result p.b r := by
  induction prog generalizing s with
  | ret r =>
    cases r with
    | error e => exact ⟨h, by intro r hr; cases hr; exact hp⟩
    | ok v =>
      refine ⟨h, ?_⟩
      intro r hr
      simp only [runProgH] at hr
      split at hr
      · cases hr; exact hp
      · cases hr
  | panic => exact ⟨h, by intro r hr; cases hr⟩
  | resolve how q k ih =>
    cases hl : s.live q with
    | false => rw [runProgH_resolve_dead hl]; exact ⟨h, by intro r hr; cases hr⟩
    | true =>
      rw [runProgH_resolve hr hl]
      have hr1 := hr.micros (hr.tracked hl)
      have h1 : Holds K (tracked p q s) :=
        (h.makeKnown hr.inv q).same rfl rfl rfl rfl
      obtain ⟨w, rfl, e | e⟩ := callHook_cases' D (.report (.resolve p q)) (tracked p q s) fun s =>
        andThen (g how q s) fun r s => runProgH Y D g p (k r) s
      · rw [e]
        exact ⟨h1.hook (hD _ _ h1.world), by intro r hr; cases hr⟩
      rw [e]
      replace h1 := h1.hook (hD _ (.report (.resolve p q)) h1.world)
      replace hr1 := hr1.micro (.world (D (tracked p q s).w (.report (.resolve p q))).1)
      have h2 := hk how q _ hr1.inv h1
      have m2 := (hg how q _ hr1.inv).micros
      generalize g how q { tracked p q s with w := (D (tracked p q s).w (.report (.resolve p q))).1 } = x at h2 m2
      obtain ⟨s2, r⟩ := x
      cases r with
      | val r =>
        obtain ⟨r0, hr0, he⟩ := h2.2 r rfl
        refine ih r ?_ (hr1.micros m2) h2.1
        cases r0 with
        | ok v => subst he; exact hp.1 v hr0
        | error e => subst he; exact hp.2 e hr0
      | panic k => exact ⟨h2.1, by intro r hr; cases hr⟩
      | stuck => exact ⟨h2.1, by intro r hr; cases hr⟩
      | overflow => exact ⟨h2.1, by intro r hr; cases hr⟩
  | myState f k ih =>
    obtain ⟨d, hd0, hst, e⟩ := hr.myState_eq f
    rw [runProgH_myState, e]
    split
    · next ht =>
      have hd := hp d (h.state _ _ _ hr.known hd0)
      exact ih d hd.2 (hr.micro (.setDyn p (f d) hr.known hr.dyn ht)) (h.wrote hr.known hd.1)
    · exact ⟨h, by intro r hr; cases hr⟩
  | world f k ih =>
    have hw := hp s.w h.world
    exact ih s.w hw.2 (hr.micro (.world _)) ⟨h.art, h.state, hw.1⟩
  | alloc q k ih =>
    simp only [runProgH]
    cases ha : allocB q s with
    | none => exact ⟨h, by intro r hr; cases hr⟩
    | some s' =>
      refine ih hp (hr.micro (.alloc q ha)) ?_
      have hc := allocB_c ha
      refine h.same (by rw [hc]) (by rw [hc]) (by rw [hc]) ?_
      unfold allocB at ha
      split at ha
      · cases ha
      · cases ha; rfl
  | free a k ih => exact ih hp (hr.micro (.free a)) (h.same rfl rfl rfl rfl)

theorem Holds.finish {K : Contract σ} (h : Holds K s) {p : Promise σ} {v : σ.V}
    (hk : s.c.known[p.id]? = some p.b) (hv : K.art p.b v) : Holds K (finish p (s, .val (.ok v))).1 := by
  constructor
  · intro a b v' h5 h6
    simp only [Daab.finish, St.onCache, Cache.emit] at h5 h6
    rw [ExtTreeMap.getElem?_insert] at h6
    split at h6
    · next he =>
      have : p.id = a := by simpa using he
      subst this
      cases h6
      rw [hk] at h5
      cases h5
      exact hv
    · exact h.art a b v' h5 h6
  · exact h.state
  · exact h.world

theorem buildH_keeps {K : Contract σ} (hK : K.Kept Y) {D : Hooks σ}
    (hD : ∀ w h, K.world w → K.world (D w h).1) {g : Getter σ} (hg : GetRan Y g)
    (hk : GetKeeps Y K g) : BuildKeeps Y K (buildH Y D g) := by
  intro p s hi hl ha h
  have h1 := h.ensureDyn hK hi hl
  rcases buildH_cases D g hi hl ha with ⟨s1, e1, e2⟩ | ⟨s1, e1, e2⟩ | ⟨s1, d, e1, e2⟩
  · rw [e2]; rw [e1] at h1; exact ⟨h1.1, by intro r hr; cases hr⟩
  · rw [e2]; rw [e1] at h1; exact ⟨h1.1, by intro r hr; cases hr⟩
  · rw [e1] at h1
    rw [e2]
    obtain ⟨hr, _, _, _⟩ := ensureDyn_running hi hl ha e1
    obtain ⟨w, hw, e | e⟩ := callHook_cases' D (.handle p) s1 fun s =>
      finishH D p (runProgH Y D g p (Y.code p.b) (entered p s))
    · rw [e]
      exact ⟨h1.1.hook (hw ▸ hD _ _ h1.1.world), by intro r hr; cases hr⟩
    rw [e]
    have h2 : Holds K { s1 with w := w } := h1.1.hook (hw ▸ hD _ _ h1.1.world)
    have hr : Running Y p (entered p { s1 with w := w }) := hr.micro (.world w)
    have h3 := runProgH_keeps hD hg hk (Y.code p.b) (hK.code p.b) hr
      (h2.same (s' := entered p { s1 with w := w }) rfl rfl rfl rfl)
    have h4 := hr.micros (runProgH_ran D hg (Y.code p.b) hr.inv hr.known hr.dyn hr.pend).1.micros
    generalize runProgH Y D g p (Y.code p.b) (entered p { s1 with w := w }) = x at h3 h4
    obtain ⟨s', r⟩ := x
    rcases r with (e | v) | k | _ | _
    · exact h3
    · simp only [finishH]
      obtain ⟨w', hw', e | e⟩ := callHook_cases' D (.report (.built p v)) s' (storeH D p v)
      · rw [e]
        exact ⟨h3.1.hook (hw' ▸ hD _ _ h3.1.world), by intro r hr; cases hr⟩
      · rw [e]
        have h5 := h3.1.hook (hw' ▸ hD _ _ h3.1.world)
        obtain ⟨w2, hw2, e1, e2⟩ := storeH_finish D p v { s' with w := w' }
        have h6 : Holds K { s' with w := w2 } := by
          rcases hw2 with rfl | ⟨h, rfl⟩
          · exact h5
          · exact h5.hook (hD _ _ h5.world)
        rw [e1]
        refine ⟨h6.finish h4.known (h3.2 _ rfl), ?_⟩
        intro r hr
        rcases e2 with e2 | e2
        · rw [e2] at hr; exact h3.2 r hr
        · rw [e2] at hr; cases hr
    · exact h3
    · exact h3
    · exact h3

theorem getByH_keeps {K : Contract σ} {D : Hooks σ} (hD : ∀ w h, K.world w → K.world (D w h).1)
    {bld : BuildFn σ} (hb : BuildOk Y bld) (hk : BuildKeeps Y K bld) : GetKeeps Y K (getByH Y D bld) := by
  have key : ∀ how p s, Inv Y s → s.live p = true → Holds K s → Holds K (getBy Y bld how p s).1 ∧
      ∀ r, (getBy Y bld how p s).2 = .val r → ∃ r0, K.result p.b r0 ∧ r = r0.map (seen Y how) := by
    intro how p s hi hl h
    cases ha : s.c.artifacts[p.id]? with
    | some v =>
      rw [getBy_hit hi bld how hl ha]
      refine ⟨h, ?_⟩
      intro r hr
      cases hr
      exact ⟨.ok v, h.art _ _ _ (hi.live_art_known hl ha) ha, rfl⟩
    | none =>
      rw [getBy_miss hi hb how hl ha]
      have h1 := hk p s hi hl ha h
      refine ⟨h1.1, ?_⟩
      intro r hr
      have h2 := h1.2
      simp only at hr
      generalize (bld p s).2 = r' at hr h2
      rcases r' with (e | v) | _ | _ | _
      · cases hr; exact ⟨.error e, h2 _ rfl, rfl⟩
      · cases hr; exact ⟨.ok v, h2 _ rfl, rfl⟩
      · cases hr
      · cases hr
      · cases hr
  intro how p s hi h
  cases hl : s.live p with
  | false => simp only [getByH, hl]; exact ⟨h, by intro r hr; cases hr⟩
  | true =>
    have k1 := key how p s hi hl h
    cases how with
    | ref => simpa only [getBy, getByH, hl, if_true] using k1
    | bin => simpa only [getBy, getByH, hl, if_true] using k1
    | cloned =>
      have k1 := key .ref p s hi hl h
      simp only [getBy, getByH, hl, if_true, getClonedH] at k1 ⊢
      generalize getRef Y bld p s = x at k1
      obtain ⟨s1, r⟩ := x
      rcases r with (e | v) | _ | _ | _
      · refine ⟨k1.1, ?_⟩
        intro r hr
        cases hr
        obtain ⟨r0, h1, h2⟩ := k1.2 _ rfl
        cases r0 with
        | ok v => cases h2
        | error e' => cases h2; exact ⟨.error e, h1, rfl⟩
      · obtain ⟨r0, h1, h2⟩ := k1.2 _ rfl
        cases r0 with
        | error e' => cases h2
        | ok v' =>
          cases h2
          have h3 := k1.1.hook (hD _ (.clone (seen Y .ref v')) k1.1.world)
          obtain ⟨w, rfl, e | e⟩ := callHook_cases' D (.clone (seen Y .ref v')) s1 fun s =>
            (s, (.val (.ok (Y.clone (seen Y .ref v'))) : Res (Except σ.E σ.V)))
          · simp only [e]; exact ⟨h3, by intro r hr; cases hr⟩
          · simp only [e]
            refine ⟨h3, ?_⟩
            intro r hr
            cases hr
            exact ⟨.ok v', h1, rfl⟩
      · exact ⟨k1.1, by intro r hr; cases hr⟩
      · exact ⟨k1.1, by intro r hr; cases hr⟩
      · exact ⟨k1.1, by intro r hr; cases hr⟩

theorem buildNH_keeps {K : Contract σ} (hK : K.Kept Y) {D : Hooks σ}
    (hD : ∀ w h, K.world w → K.world (D w h).1) (n : Nat) :
    BuildKeeps Y K (buildNH Y D n) ∧ GetKeeps Y K (getAH Y D n) := by
  induction n with
  | zero =>
    have h : BuildKeeps Y K (buildNH Y D 0) := fun p s _ _ _ h => ⟨h, by intro r hr; cases hr⟩
    exact ⟨h, getByH_keeps hD (getAH_ok Y D 0).2 h⟩
  | succ n ih =>
    have h : BuildKeeps Y K (buildNH Y D (n + 1)) := buildH_keeps hK hD (getAH_ok Y D n).1 ih.2
    exact ⟨h, getByH_keeps hD (getAH_ok Y D (n + 1)).2 h⟩

theorem holds_hooks {K : Contract σ} (hK : K.Kept Y) {D : Hooks σ}
    (hD : ∀ w h, K.world w → K.world (D w h).1) : HooksPreserve Y (Holds K) D where
  bld n _ p s hi hj hl ha _ := ((buildNH_keeps hK hD (n + 1)).1 p s hi hl ha hj).1
  world _ _ hj := hj.hook (hD _ _ hj.world)

theorem UnderContract.holds {K : Contract σ} (hK : K.Kept Y) (h : UnderContract Y K s) : Holds K s := by
  induction h with
  | new w hw =>
    refine ⟨?_, ?_, hw⟩
    · intro a b v hk; simp [St.new] at hk
    · intro a b v hk; simp [St.new] at hk
  | step n ord op hs hA hg ih => exact step_preserves (holds_ops hK) hs.reachable.inv n ord op hA hg ih
  | @hooked s D n ord op hs hA hD hg ih =>
    rcases stepH_cases (Y := Y) (s := s) D n ord op with ⟨hl, e⟩ | e
    · rw [e] at hg ⊢
      exact execH_preserves (holds_ops hK) (holds_hooks hK hD) hs.reachable.inv n ord op hA hl hg ih
    · rw [e]; exact ih

end Daab
