import Verif.Props37
import Verif.DemoUtils

/-!
# C12, C30, C33, C34: with any hooks

What a panic of a doctor, of a `Debug` or `Clone` implementation, or of a builder leaves behind; what becomes of the dynamic states;
and what the wrapper builders of `src/utils.rs` answer, whatever the hooks do.
-/

open Std

namespace Daab

section
variable {σ : Sig} {Y : Sys σ} {s s' : St σ}

/-- **C12** A dynamic state survives every operation, with any doctor, `Debug` and `Clone`, panicking or not, with these exceptions:
it may be changed by `dyn_state_mut` of that builder or during an operation that calls this builder's own build; it is removed by
`purge` of that builder, by `clear_all`, or by a garbage collection when nobody references the builder any more. -/
theorem C12_any_hooks (h : Reachable Y s) {op : Op σ} {r : Res (Ans σ)} (hw : Went Y s op s' r) {a : Id} {d : σ.S}
    (hd : HasState s a d) :
    HasState s' a d ∨
    ((∃ d', HasState s' a d') ∧ ((∃ p f, op = .dynStateMut p f ∧ p.id = a) ∨ ∃ p : Promise σ, p.id = a ∧ Since s s' (.call p))) ∨
    (∃ p, op = .purge p ∧ p.id = a) ∨ op = .clearAll ∨ (op = .gc ∧ Dead s a) :=
  C65_state_persists (C65_reachable h) (.went hw) hd

/-! ## Builds with hooks: panics, and wrappers -/

/-- The state in which the code of `p`, which starts by resolving `q`, asks for it, if there are hooks: nothing has happened but that
`p` may have got its initial state, and is recorded to use `q`. -/
structure AskedH (s s1 : St σ) (p q : Promise σ) : Prop where
  art : ∀ a v, Cached s1 a v ↔ Cached s a v
  heap : s1.heap = s.heap
  states : ∀ a d, a ≠ p.id → (HasState s1 a d ↔ HasState s a d)
  state : ∀ d, HasState s p.id d → HasState s1 p.id d
  uses : ∀ u d, UsesNow s1 u d ↔ UsesNow s u d ∨ (u = p.id ∧ d = q.id)
  called : Since s s1 (.call p)

theorem ensureDyn_had (p : Promise σ) {d : σ.S} (hd : HasState s p.id d) : (ensureDyn Y p s).1.c.dynStates[p.id]? = some d := by
  unfold HasState at hd
  have h1 : (s.onCache (makeKnown p)).c.dynStates[p.id]? = some d := by simpa [St.onCache] using hd
  unfold ensureDyn
  simp only [h1]

theorem asks (D : Hooks σ) (n : Nat) (hi : Inv Y s) {p q : Promise σ} (hl : s.live p = true) (hq : s.live q = true)
    (ha : s.c.artifacts[p.id]? = none) {how : Access} {k : Except σ.E σ.V → Prog σ} (hc : Y.code p.b = .resolve how q k)
    {r : Except σ.E σ.V} (hr : (buildH Y D (getAH Y D n) p s).2 = .val r) :
    ∃ s1 s2 s3 y, AskedH s s1 p q ∧ Running Y p s1 ∧ s1.live q = true ∧
      (∃ se d w w', ensureDyn Y p s = (se, .val d) ∧ s1 = { tracked p q (entered p { se with w := w }) with w := w' }) ∧
      getAH Y D n how q s1 = (s2, .val y) ∧ runProgH Y D (getAH Y D n) p (k y) s2 = (s3, .val r) ∧
      ∃ w, (buildH Y D (getAH Y D n) p s).1 = { (finish p (s3, .val r)).1 with w := w } := by
  obtain ⟨h1, h2, h3, h4, h5⟩ := ensureDyn_same (Y := Y) p s
  rcases buildH_cases D (getAH Y D n) hi hl ha with ⟨s1, e1, e2⟩ | ⟨s1, e1, e2⟩ | ⟨se, d, e1, e2⟩
  · rw [e2] at hr; cases hr
  · rw [e2] at hr; cases hr
  obtain ⟨hrun, hm, _, hd⟩ := ensureDyn_running hi hl ha e1
  rw [e1] at h1 h2 h3 h4 h5
  simp only at h1 h2 h3 h4 h5
  rw [e2] at hr ⊢
  obtain ⟨w, e | e⟩ := callHook_cases D (.handle p) se fun s => finishH D p (runProgH Y D (getAH Y D n) p (Y.code p.b) (entered p s))
  · rw [e] at hr; cases hr
  rw [e] at hr ⊢
  clear e e2
  replace hrun : Running Y p (entered p { se with w := w }) := hrun.micro (.world w)
  have hq1 : (entered p { se with w := w }).live q = true := by
    simpa only [St.live, entered, St.onCache, h4] using hq
  rw [hc, runProgH_resolve hrun hq1] at hr ⊢
  obtain ⟨w', e | e⟩ := callHook_cases D (.report (.resolve p q)) (tracked p q (entered p { se with w := w })) fun s =>
    andThen (getAH Y D n how q s) fun r s => runProgH Y D (getAH Y D n) p (k r) s
  · rw [e] at hr; cases hr
  rw [e] at hr ⊢
  clear e
  have hrun1 : Running Y p { tracked p q (entered p { se with w := w }) with w := w' } :=
    (hrun.micros (hrun.tracked hq1)).micro (.world w')
  have hask : AskedH s { tracked p q (entered p { se with w := w }) with w := w' } p q := by
    refine ⟨fun a v => ?_, ?_, fun a d' hne => ?_, fun d' hd' => ?_, fun u d' => ?_, ?_⟩
    · simp [Cached, tracked, entered, St.onCache, addEdge, Cache.emit, h1]
    · simpa [tracked, entered, St.onCache] using h4
    · simp [HasState, tracked, entered, St.onCache, addEdge, Cache.emit, h5 a hne]
    · have h6 := ensureDyn_had (Y := Y) p hd'
      rw [e1] at h6
      simpa [HasState, tracked, entered, St.onCache, addEdge, Cache.emit] using h6
    · simp only [usesNow_iff, tracked, entered, St.onCache, addEdge_dep]
      simp only [Dep, makeKnown_dependents, Cache.emit, h2]
    · have h6 := (ensureDyn_ran hi hl (Y := Y)).1.micros.log_mono
      rw [e1] at h6
      obtain ⟨l, hl⟩ := h6
      refine ⟨.resolve p q :: .call p :: l, ?_, by simp⟩
      simp [tracked, entered, St.onCache, addEdge, Cache.emit, makeKnown_log]
      exact hl.symm
  generalize hs1 : ({ tracked p q (entered p { se with w := w }) with w := w' } : St σ) = s1 at hr hrun1 hask
  have hl1 : s1.live q = true := by rw [← hs1]; exact hq1
  cases hx : getAH Y D n how q s1 with
  | mk s2 r2 =>
  rw [hx] at hr
  cases r2 with
  | val y =>
    simp only [andThen] at hr ⊢
    cases hz : runProgH Y D (getAH Y D n) p (k y) s2 with
    | mk s3 r3 =>
    rw [hz] at hr
    refine ⟨s1, s2, s3, y, hask, hrun1, hl1, ⟨se, d, w, w', e1, hs1.symm⟩, hx, ?_⟩
    rcases r3 with (er | v) | k | _ | _
    · simp only [finishH] at hr ⊢
      cases hr
      exact ⟨hz, s3.w, rfl⟩
    · simp only [finishH] at hr ⊢
      obtain ⟨w1, e | e⟩ := callHook_cases D (.report (.built p v)) s3 (storeH D p v)
      · rw [e] at hr; cases hr
      · obtain ⟨w2, _, e1, e2⟩ := storeH_finish D p v { s3 with w := w1 }
        rw [e] at hr ⊢
        rcases e2 with e2 | e2
        · rw [e2] at hr; cases hr
          exact ⟨hz, w2, e1⟩
        · rw [e2] at hr; cases hr
    all_goals cases hr
  | _ => cases hr

theorem getAH_miss (D : Hooks σ) (n : Nat) {how : Access} {p : Promise σ} (hi : Inv Y s) (hl : s.live p = true)
    (ha : s.c.artifacts[p.id]? = none) {x : Except σ.E σ.V} (hr : (getAH Y D n how p s).2 = .val x) :
    ∃ m r w, n = m + 1 ∧ (buildH Y D (getAH Y D m) p s).2 = .val r ∧ x = seenEx Y how r ∧
      (getAH Y D n how p s).1 = { (buildH Y D (getAH Y D m) p s).1 with w := w } := by
  have h1 := getAH_val hr
  obtain ⟨w, h2, _⟩ := getByH_getBy (Y := Y) D (buildNH Y D n) how p s
  rw [← getAH_eq, getBy_miss hi (getAH_ok Y D n).2 how hl ha] at h2
  rw [getBy_miss hi (getAH_ok Y D n).2 how hl ha] at h1
  cases n with
  | zero => cases h1
  | succ m =>
    simp only [buildNH] at h1 h2
    refine ⟨m, ?_⟩
    generalize buildH Y D (getAH Y D m) p s = y at h1 h2
    obtain ⟨s1, r⟩ := y
    cases r with
    | val r => refine ⟨r, w, rfl, rfl, ?_, h2⟩; cases r <;> cases h1 <;> rfl
    | _ => cases h1

/-- A `get` that answers, while nothing is cached, has called the builder. -/
theorem get_calls (hi : Inv Y s) {p : Promise σ} {how : Access} {x : Except σ.E σ.V} (hl : s.live p = true) (hu : Uncached s p.id)
    (hw : Went Y s (.get how p) s' (.val (.art x))) : Since s s' (.call p) := by
  obtain ⟨D, n, ord, rfl, hr⟩ := went_plain hw
  clear hw
  rw [stepH_get hl] at hr ⊢
  simp only at hr ⊢
  have hv : (getAH Y D n how p s).2 = .val x := by
    generalize (getAH Y D n how p s).2 = y at hr
    cases y <;> simp only [Res.map] at hr <;> cases hr
    rfl
  obtain ⟨m, r, w, rfl, hb, _, hs⟩ := getAH_miss D n hi hl hu hv
  have key : Since s (buildH Y D (getAH Y D m) p s).1 (.call p) := by
    rcases buildH_cases D (getAH Y D m) hi hl hu with ⟨s1, e1, e2⟩ | ⟨s1, e1, e2⟩ | ⟨se, d, e1, e2⟩
    · rw [e2] at hb; cases hb
    · rw [e2] at hb; cases hb
    obtain ⟨hrun, _⟩ := ensureDyn_running hi hl hu e1
    have h6 := (ensureDyn_ran hi hl (Y := Y)).1.micros.log_mono
    rw [e1] at h6
    obtain ⟨l, hl⟩ := h6
    simp only at hl
    rw [e2] at hb ⊢
    obtain ⟨w, e | e⟩ := callHook_cases D (.handle p) se fun s => finishH D p (runProgH Y D (getAH Y D m) p (Y.code p.b) (entered p s))
    · rw [e] at hb; cases hb
    rw [e] at hb ⊢
    replace hrun : Running Y p (entered p { se with w := w }) := hrun.micro (.world w)
    have m3 := (runProgH_ran D (getAH_ok Y D m).1 (Y.code p.b) hrun.inv hrun.known hrun.dyn hrun.pend).1.micros.log_mono
    generalize runProgH Y D (getAH Y D m) p (Y.code p.b) (entered p { se with w := w }) = z at m3 hb
    obtain ⟨s3, r3⟩ := z
    obtain ⟨l', hl'⟩ := m3
    have h0 : Since s s3 (.call p) := by
      refine ⟨l' ++ .call p :: l, ?_, by simp⟩
      simp only at hl'
      rw [← hl']
      simp [entered, St.onCache, Cache.emit, ← hl]
    rcases r3 with (er | v) | k | _ | _
    · exact h0
    · simp only [finishH] at hb ⊢
      obtain ⟨w1, e | e⟩ := callHook_cases D (.report (.built p v)) s3 (storeH D p v)
      · rw [e] at hb; cases hb
      · obtain ⟨w2, _, e1, _⟩ := storeH_finish D p v { s3 with w := w1 }
        rw [e, e1]
        obtain ⟨new, h1, h2⟩ := h0
        exact ⟨.built p v :: new, by simp [finish, St.onCache, Cache.emit, h1], by simp [h2]⟩
    all_goals cases hb
  rw [hs]
  exact key

/-- **C30** A `get(p)` inside of which anything panicked, be it a builder, the doctor, or a `Debug` or `Clone` implementation, keeps
all artifacts and all uses on record, all known builders stay known, and all states stay there; what is cached for `p` afterwards was
cached before or has really been built meanwhile; and
whenever `get(p)` returns later, be it with an artifact or an error, while nothing is cached for `p`, then it has called `p` again. -/
theorem C30_any_hooks (h : Reachable Y s) {p : Promise σ} {how : Access} {k : Panic} (hw : Went Y s (.get how p) s' (.panic k)) :
    Reachable Y s' ∧
    (∀ a v, Cached s a v → Cached s' a v) ∧ (∀ u d, UsesNow s u d → UsesNow s' u d) ∧ (∀ a, Known s a → Known s' a) ∧
    (∀ a d, HasState s a d → ∃ d', HasState s' a d') ∧
    (∀ v, Cached s' p.id v → Cached s p.id v ∨ ∃ q, q.id = p.id ∧ Since s s' (.built q v)) ∧
    ∀ t t' how' x, Runs Y s' t → t.live p = true → Uncached t p.id → Went Y t (.get how' p) t' (.val (.art x)) →
      Since t t' (.call p) := by
  simp only [usesNow_iff]
  have hk : k ≠ .noCounterpart := by
    rintro rfl
    rcases (C65_panics (C65_reachable h) (.went hw)).1 _ rfl with h | h | ⟨h, _⟩ | ⟨h, _⟩ <;> cases h
  have hl := hw.live (r := .panic k) hk rfl
  have hre := h.went hw hk
  refine ⟨hre, ?_⟩
  obtain ⟨D, n, ord, rfl, _⟩ := went_plain hw
  clear hw
  rw [stepH_get hl] at hre ⊢
  have hran := (getAH_ok Y D n).1 how p s h.inv
  have hm := hran.micros
  refine ⟨hran.keep, hm.dep_mono, fun a ha => ?_, fun a d hd => ?_, fun v hv => ?_, fun t t' how' x ht hlt hu hw => ?_⟩
  · obtain ⟨b, hb⟩ := (mem_getElem _ _).1 ha
    exact (mem_getElem _ _).2 ⟨b, hm.known_mono _ _ hb⟩
  · exact (mem_getElem _ _).1 (hm.dyn_mono a ((mem_getElem _ _).2 ⟨d, hd⟩))
  · unfold Cached at hv ⊢
    rcases hm.art_built (a := p.id) with he | ⟨q, v', h1, h3, h2⟩
    · rw [he] at hv; exact .inl hv
    · simp only at hv h3
      rw [h3] at hv; cases hv
      exact .inr ⟨q, h1, h2⟩
  · exact get_calls (ht.reachable hre).inv hlt hu hw

/-- What a wrapper answers, whatever the hooks. -/
theorem wrapper_hooks (h : Reachable Y s) {p q : Promise σ} (hl : s.live p = true) (hq : s.live q = true) (hu : Uncached s p.id)
    {how how' : Access} {f : Except σ.E σ.V → Except σ.E σ.V} (hc : Y.code p.b = .resolve how' q fun r => .ret (f r))
    {x : Except σ.E σ.V} (hw : Went Y s (.get how p) s' (.val (.art x))) :
    ∃ s1 s2 y, AskedH s s1 p q ∧ Inv Y s1 ∧ s1.live q = true ∧ Went Y s1 (.get how' q) s2 (.val (.art y)) ∧ x = seenEx Y how (f y) ∧
      ∀ v, f y = .ok v → Cached s' p.id v ∧ ∀ a v', a ≠ p.id → (Cached s' a v' ↔ Cached s2 a v') := by
  obtain ⟨D, n, ord, rfl, hr⟩ := went_plain hw
  clear hw
  rw [stepH_get hl] at hr ⊢
  simp only at hr ⊢
  have hv : (getAH Y D n how p s).2 = .val x := by
    generalize (getAH Y D n how p s).2 = y at hr
    cases y <;> simp only [Res.map] at hr <;> cases hr
    rfl
  obtain ⟨m, r, w, rfl, hb, hx, hs⟩ := getAH_miss D n h.inv hl hu hv
  obtain ⟨s1, s2, s3, y, hask, hrun, hq1, _, hg, hcode, w', hfin⟩ := asks D m h.inv hl hq hu hc hb
  have hgo : Went Y s1 (.get how' q) s2 (.val (.art y)) := by
    have := Went.hooked (Y := Y) (s := s1) (op := .get how' q) D m ord
    rw [stepH_get hq1, hg] at this
    exact this
  have hres : r = f y ∧ s3 = s2 := by
    cases hfy : f y with
    | error e =>
      rw [hfy] at hcode
      simp only [runProgH] at hcode
      cases hcode; exact ⟨rfl, rfl⟩
    | ok v =>
      rw [hfy] at hcode
      simp only [runProgH] at hcode
      split at hcode
      · cases hcode; exact ⟨rfl, rfl⟩
      · cases hcode
  obtain ⟨rfl, rfl⟩ := hres
  refine ⟨s1, s3, y, hask, hrun.inv, hq1, hgo, hx, fun v hv => ?_⟩
  unfold Cached
  rw [hs, hfin, hv]
  simp only [finish, St.onCache, Cache.emit]
  refine ⟨by grind, fun a v' hne => ?_⟩
  have : ¬ p.id = a := fun e => hne e.symm
  grind

/-- **C34** Whatever the hooks: if a `ForwardingBuilder` or `FeigningBuilder` without artifact answers, then its inner builder was asked
meanwhile, in a state in which nothing had happened but that the wrapper had got its initial state and was recorded to use its inner
builder; the answer is the one of the inner builder, artifact or error; and if it is an artifact, the cache holds one and the same
`Bin` for both of them, and else what the inner builder left. -/
theorem C34_any_hooks (h : Reachable Y s) {p q : Promise σ} (hf : Forwarding Y p q ∨ Feigning Y p q)
    (hl : s.live p = true) (hq : s.live q = true) (hu : Uncached s p.id) {how : Access} {x : Except σ.E σ.V}
    (hw : Went Y s (.get how p) s' (.val (.art x))) :
    ∃ s1 s2 y, AskedH s s1 p q ∧ Went Y s1 (.get .bin q) s2 (.val (.art y)) ∧ x = seenEx Y how y ∧
      ∀ v, y = .ok v → Cached s' p.id v ∧ Cached s' q.id v ∧ ∀ a v', a ≠ p.id → (Cached s' a v' ↔ Cached s2 a v') := by
  have key : ∃ f : Except σ.E σ.V → Except σ.E σ.V, (∀ y, f y = y) ∧ Y.code p.b = .resolve .bin q fun r => .ret (f r) := by
    rcases hf with hf | hf
    · exact ⟨id, fun _ => rfl, hf.code⟩
    · exact ⟨_, fun y => by cases y <;> rfl, hf.code⟩
  obtain ⟨f, hid, hc⟩ := key
  obtain ⟨s1, s2, y, hask, hi1, hq1, hgo, hx, hcv⟩ := wrapper_hooks h hl hq hu hc hw
  rw [hid] at hx hcv
  refine ⟨s1, s2, y, hask, hgo, hx, fun v hv => ?_⟩
  obtain ⟨c1, c2⟩ := hcv v hv
  refine ⟨c1, ?_, c2⟩
  subst hv
  by_cases he : q.id = p.id
  · rw [he]; exact c1
  · refine (c2 _ _ he).2 ?_
    obtain ⟨D, n, ord, rfl, hr⟩ := went_plain hgo
    rw [stepH_get hq1] at hr ⊢
    have hv : (getAH Y D n .bin q s1).2 = .val (.ok v) := by
      simp only at hr
      generalize (getAH Y D n .bin q s1).2 = y at hr
      cases y <;> simp only [Res.map] at hr <;> cases hr
      rfl
    obtain ⟨v0, ha, hx, _⟩ := (getAH_by D n).ok .bin q s1 hi1 v (getAH_val hv)
    obtain ⟨w, h1, _⟩ := getByH_getBy (Y := Y) D (buildNH Y D n) .bin q s1
    rw [← getAH_eq] at h1
    simp only [seen] at hx
    subst hx
    unfold Cached
    rw [h1]
    exact ha

/-- **C34** The same for a `ClonedBuilder`: it answers a re-binned clone of the artifact of its inner builder, or its error. -/
theorem C34_any_hooks_cloned (h : Reachable Y s) {p q : Promise σ} {intoBin : σ.V → σ.V} (hf : Cloning Y intoBin p q)
    (hl : s.live p = true) (hq : s.live q = true) (hu : Uncached s p.id) {how : Access} {x : Except σ.E σ.V}
    (hw : Went Y s (.get how p) s' (.val (.art x))) :
    ∃ s1 s2 y, AskedH s s1 p q ∧ Went Y s1 (.get .cloned q) s2 (.val (.art y)) ∧
      (∀ e, y = .error e → x = .error e) ∧
      ∀ c, y = .ok c → x = .ok (seen Y how (intoBin c)) ∧ Cached s' p.id (intoBin c) ∧
        ∀ a v', a ≠ p.id → (Cached s' a v' ↔ Cached s2 a v') := by
  obtain ⟨s1, s2, y, hask, hi1, hq1, hgo, hx, hcv⟩ := wrapper_hooks h hl hq hu hf.code hw
  refine ⟨s1, s2, y, hask, hgo, ?_, ?_⟩
  · rintro e rfl; exact hx
  · rintro c rfl; exact ⟨hx, hcv _ rfl⟩

theorem ensureDyn_lastGood (p : Promise σ) (dflt : Option σ.V) (q : Promise σ) (s : St σ) :
    lastGood p dflt (ensureDyn Y q s).1.c.log = lastGood p dflt s.c.log := by
  unfold ensureDyn
  simp only
  split
  · simp only [St.onCache, makeKnown_log]
  · split
    · simp only [St.onCache, makeKnown_log, Cache.emit, lastGood]
    · split
      · simp only [St.onCache, makeKnown_log, Cache.emit, lastGood]
      · simp only [St.onCache, makeKnown_log]

/-- **C33** Whatever the hooks, if no doctor panics when it is told that `p` was built, and after any history without handing out the
dynamic state of `p` for writing: if a `RedeemingBuilder` `p` without artifact answers, then its inner builder `q` was asked meanwhile.
The answer is never an error: it is the artifact of `q`, or, if `q` failed, the artifact that `p` was itself built to the last time (at
first its default).  That is cached then, and what `p` remembers from then on; and nothing else changes what it remembers while `q` is
asked, except if the build of `q` in turn builds `p`. -/
theorem C33_any_hooks {p q : Promise σ} {enc : Option σ.V → σ.S} {dec : σ.S → Option σ.V} {dflt : Option σ.V}
    (h : ReachableBy Y (NotSetting p) (Hears p) s) (hr : Redeeming Y enc dec dflt p q) (hl : s.live p = true) (hq : s.live q = true)
    (hu : Uncached s p.id) {D : Hooks σ} (hD : Hears p D) {n : Nat} {ord : HashOrder} {how : Access} {x : Except σ.E σ.V}
    (hw : stepH Y D n ord s (.get how p) = (s', .val (.art x))) :
    ∃ s1 s2 y v, AskedH s s1 p q ∧ Went Y s1 (.get .bin q) s2 (.val (.art y)) ∧ x = .ok (seen Y how v) ∧
      (y = .ok v ∨ ∃ e, y = .error e ∧ lastGood p dflt s2.c.log = some v) ∧
      Cached s' p.id v ∧ lastGood p dflt s'.c.log = some v ∧
      ((∀ v, ¬ Since s1 s2 (.built p v)) → lastGood p dflt s2.c.log = lastGood p dflt s.c.log) := by
  have hi := h.reachable.inv
  have hm := h.memo hr
  rw [stepH_get hl] at hw
  have hs' : (getAH Y D n how p s).1 = s' := congrArg Prod.fst hw
  have hv : (getAH Y D n how p s).2 = .val x := by
    have hr := congrArg Prod.snd hw
    simp only at hr
    generalize (getAH Y D n how p s).2 = y at hr
    cases y <;> simp only [Res.map] at hr <;> cases hr
    rfl
  clear hw
  obtain ⟨m, r, w, rfl, hb, hx, hs⟩ := getAH_miss D n hi hl hu hv
  obtain ⟨s1, s2, s3, y, hask, hrun, hq1, ⟨se, d, w1, w2, he, hs1⟩, hg, hcode, w', hfin⟩ := asks D m hi hl hq hu hr.code hb
  have hgo : Went Y s1 (.get .bin q) s2 (.val (.art y)) := by
    have := Went.hooked (Y := Y) (s := s1) (op := .get .bin q) D m ord
    rw [stepH_get hq1, hg] at this
    exact this
  have hm1 : Memo Y dec dflt p s1 ∧ lastGood p dflt s1.c.log = lastGood p dflt s.c.log := by
    have h1 := ensureDyn_memo hr p hi hl hm
    have h2 := ensureDyn_lastGood (Y := Y) p dflt p s
    have h3 := (ensureDyn_running hi hl hu he).1.micro (.world w1)
    rw [he] at h1 h2
    have h4 : Memo Y dec dflt p (entered p { se with w := w1 }) := h1.same rfl rfl
    have h5 := memo_track p q _ h3.inv h4
    rw [hs1]
    refine ⟨h5.same rfl rfl, ?_⟩
    simp only [tracked, entered, St.onCache, addEdge, Cache.emit, makeKnown_log, lastGood]
    exact h2
  obtain ⟨hm1, hl1⟩ := hm1
  have hm2 := (getAH_preserves (memo_hooks hr D hD) m).1 .bin q s1 hrun.inv hm1
  have mm := ((getAH_ok Y D m).1 .bin q s1 hrun.inv).micros
  have hty := fun v => getAH_bin_ty (v := v) (n := m) (q := q) D hrun.inv
  rw [hg] at hm2 mm hty
  have hlast := mm.lastGood p dflt
  simp only at hlast hty
  obtain ⟨_, hres⟩ := redeem_rest hr (hrun.micros mm) (hm2 (ended_val _)) (getA Y m) y (by
    rintro v rfl
    exact hty v rfl)
  rw [runProgH_rest D (getAH Y D m) (getA Y m)] at hcode
  rw [hcode, finish_res] at hres
  refine ⟨s1, s2, y, ?_⟩
  have key : ∀ v, r = .ok v → Cached s' p.id v ∧ lastGood p dflt s'.c.log = some v := by
    rintro v rfl
    rw [← hs', hs, hfin]
    simp [finish, Cached, St.onCache, Cache.emit, lastGood]
  have hstay : (∀ v, ¬ Since s1 s2 (.built p v)) → lastGood p dflt s2.c.log = lastGood p dflt s.c.log :=
    fun hn => (hlast hn).trans hl1
  cases y with
  | ok v =>
    simp only at hres
    have hrv : r = .ok v := by have := hres.1; cases this; rfl
    subst hrv
    exact ⟨v, hask, hgo, hx, .inl rfl, (key v rfl).1, (key v rfl).2, hstay⟩
  | error e =>
    simp only at hres
    cases hlg : lastGood p dflt s2.c.log with
    | none => rw [hlg] at hres; cases hres
    | some v =>
      rw [hlg] at hres
      cases hres
      exact ⟨v, hask, hgo, hx, .inr ⟨e, rfl, rfl⟩, (key v rfl).1, (key v rfl).2, hlg ▸ hstay⟩

end

/-! ## Examples -/

namespace Demo

/-- The doctor panics when it is told that `dyn_state_mut` invalidated: the state 5 of builder 0 is as it was. -/
example : HasState (stepH Y (tick s1.w) 9 ord s1 (.dynStateMut (P 0) (· + (3 : Nat)))).1 10 (5 : Nat) ∧
    ∀ s' r, Went Y s1 (.get .bin (P 3)) s' r → HasState s' 10 (5 : Nat) ∨ ((∃ d', HasState s' 10 d') ∧
      ∃ p : Promise sig, p.id = 10 ∧ Since s1 s' (.call p)) := by
  refine ⟨by unfold HasState; decide +kernel, fun s' r hw => ?_⟩
  rcases C12_any_hooks reach1 hw (a := 10) (d := (5 : Nat)) rfl with h | ⟨h, ⟨p, f, h2, _⟩ | h2⟩ | ⟨p, h, _⟩ | h | ⟨h, _⟩
  · exact .inl h
  · cases h2
  · exact .inr ⟨h, h2⟩
  all_goals cases h

end Demo

namespace DemoUtils

open Demo (sig P ord)

set_option smartUnfolding false in
/-- The doctor panics when it is told that 1 was built, which wraps 0: 0 is still cached, and 1 is not. -/
example : let s := after [.get .bin (P 0)]
    let s' := (stepH Y refusing 9 ord s (.get .bin (P 1))).1
    Reachable Y s' ∧ Cached s' 10 (40 : Nat) ∧ Uncached s' 11 := by
  intro s s'
  have hw : Went Y s (.get .bin (P 1)) s' (.panic .user) := by
    have := Went.hooked (Y := Y) (s := s) (op := .get .bin (P 1)) refusing 9 ord
    rwa [show (stepH Y refusing 9 ord s (.get .bin (P 1))).2 = .panic .user from rfl] at this
  obtain ⟨h1, h2, _⟩ := C30_any_hooks (reach _ (by decide)) hw
  exact ⟨h1, h2 10 (40 : Nat) rfl, rfl⟩

/-- A doctor that sets the outside world to 0 whenever it is told anything. -/
def silencing : Hooks sig := fun _ _ => ((0 : Nat), false)

set_option smartUnfolding false in
/-- 1 and 2 forward to 0, whatever the doctor does. -/
example : let s := after [.dynStateMut (P 0) fun _ => (50 : Nat)]
    ∃ s1 s2 y, AskedH s s1 (P 1) (P 0) ∧ Went Y s1 (.get .bin (P 0)) s2 (.val (.art y)) ∧ (.ok (50 : Nat)) = seenEx Y .bin y := by
  intro s
  have hw : Went Y s (.get .bin (P 1)) (stepH Y silencing 9 ord s (.get .bin (P 1))).1 (.val (.art (.ok (50 : Nat)))) := by
    have := Went.hooked (Y := Y) (s := s) (op := .get .bin (P 1)) silencing 9 ord
    rwa [show (stepH Y silencing 9 ord s (.get .bin (P 1))).2 = .val (.art (.ok (50 : Nat))) from rfl] at this
  obtain ⟨s1, s2, y, h1, h2, h3, _⟩ := C34_any_hooks (reach _ (by decide)) (.inl forwarding) (by decide) (by decide)
    (by unfold Uncached; decide) hw
  exact ⟨s1, s2, y, h1, h2, h3⟩

set_option smartUnfolding false in
/-- 3 clones 0 and adds 1000. -/
example : let s := after [.dynStateMut (P 0) fun _ => (50 : Nat)]
    ∃ s1 s2 y, AskedH s s1 (P 3) (P 0) ∧ Went Y s1 (.get .cloned (P 0)) s2 (.val (.art y)) ∧ ∀ e, y ≠ .error e := by
  intro s
  have hw : Went Y s (.get .bin (P 3)) (stepH Y silencing 9 ord s (.get .bin (P 3))).1 (.val (.art (.ok (1050 : Nat)))) := by
    have := Went.hooked (Y := Y) (s := s) (op := .get .bin (P 3)) silencing 9 ord
    rwa [show (stepH Y silencing 9 ord s (.get .bin (P 3))).2 = .val (.art (.ok (1050 : Nat))) from rfl] at this
  obtain ⟨s1, s2, y, h1, h2, h3, _⟩ := C34_any_hooks_cloned (reach _ (by decide)) cloning (by decide) (by decide)
    (by unfold Uncached; decide) hw
  exact ⟨s1, s2, y, h1, h2, fun e he => by cases h3 e he⟩

set_option smartUnfolding false in
/-- The doctor makes the inner builder of the `RedeemingBuilder` 6 fail, which would work otherwise: the artifact of the last success
is answered. -/
example : let s := after [.world fun _ => (3 : Nat), .get .bin (P 6), .invalidate (P 5), .world fun _ => (4 : Nat)]
    let s' := (stepH Y silencing 9 ord s (.get .bin (P 6))).1
    (step Y 9 ord s (.get .bin (P 6))).2 = .val (.art (.ok (4 : Nat))) ∧ Cached s' 16 (3 : Nat) ∧
    lastGood (P 6) none s'.c.log = some (3 : Nat) := by
  intro s s'
  have hs : stepH Y silencing 9 ord s (.get .bin (P 6)) = (s', .val (.art (.ok (3 : Nat)))) := rfl
  obtain ⟨s1, s2, y, v, _, _, hx, _, h4, h5, _⟩ := C33_any_hooks (reachBy _ (by
      intro op hop f h
      subst h
      simp [Demo.allocs] at hop) (by decide)) redeeming6 (by decide) (by decide) (by unfold Uncached; decide)
    (D := silencing) (fun _ _ => rfl) hs
  cases hx
  exact ⟨rfl, h4, h5⟩

end DemoUtils

end Daab
