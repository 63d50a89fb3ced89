import Verif.HookRuns
import Verif.Props14
import Verif.Props32

/-!
# Properties: the core properties with any doctor, `Debug` and `Clone`

C01, C02, C03, C05, C06, C10, C11, C13, C18, C22, C26, C32, C48 and C49 again, for operations (`Went`) during which a doctor, a
`Debug` or a `Clone` implementation may do to the outside world whatever they like, and may panic.
-/

open Std

namespace Daab

section
variable {σ : Sig} {Y : Sys σ} {s s' : St σ} {r : Res (Ans σ)}

/-! ## C01, C02, C03: `get` -/

/-- **C01** Of what is cached, `get` returns the same artifact, without touching anything; `get_cloned` runs one `Clone`
implementation, which can only do something outside of the cache, or panic. -/
theorem C01_any_hooks (h : Reachable Y s) {p : Promise σ} (hl : s.live p = true) {v : σ.V} (hv : Cached s p.id v) {how : Access}
    (hw : Went Y s (.get how p) s' r) :
    (∃ w, s' = { s with w := w }) ∧ (how ≠ .cloned → s' = s) ∧
    (r = .val (.art (.ok (seen Y how v))) ∨ how = .cloned ∧ r = .panic .user) := by
  obtain ⟨D, n, ord, rfl, rfl⟩ := went_plain hw
  rw [stepH_get hl, getAH_eq]
  obtain ⟨w, h1, h2, h3⟩ := getByH_getBy (Y := Y) D (buildNH Y D n) how p s
  rw [getBy_hit h.inv _ how hl hv] at h1 h2 h3
  simp only at h1 h2 h3
  refine ⟨⟨w, h1⟩, fun hh => by rw [h1, h3 hh], ?_⟩
  rcases h2 with h2 | ⟨hc, h2, _⟩
  · left; simp only [h2, Res.map]
  · right; exact ⟨hc, by simp only [h2, Res.map]⟩

/-- **C02** Whenever `get` returns an artifact, that artifact is cached afterwards, and its builder known; whoever looks it up
then, sees it. -/
theorem C02_any_hooks (h : Reachable Y s) {p : Promise σ} {x : σ.V} {how : Access}
    (hw : Went Y s (.get how p) s' (.val (.art (.ok x)))) :
    ∃ v, x = seen Y how v ∧ Cached s' p.id v ∧ Known s' p.id ∧ ∀ how' s'' r', s'.live p = true → Went Y s' (.lookup how' p) s'' r' →
      r' = .val (.optArt (some (seen Y how' v))) ∨ how' = .cloned ∧ r' = .panic .user := by
  have hl := hw.live trivial rfl
  have hre := h.went hw trivial
  obtain ⟨D, n, ord, rfl, hr⟩ := went_plain hw
  rw [stepH_get hl] at hr hre ⊢
  simp only at hr hre ⊢
  have hv : (getAH Y D n how p s).2 = .val (.ok x) := by
    generalize (getAH Y D n how p s).2 = y at hr
    cases y <;> simp only [Res.map] at hr <;> cases hr
    rfl
  obtain ⟨v, ha, hx, _⟩ := (getAH_by D n).ok how p s h.inv x (getAH_val hv)
  obtain ⟨w, h1, _⟩ := getByH_getBy (Y := Y) D (buildNH Y D n) how p s
  rw [← getAH_eq] at h1
  have ha' : (getAH Y D n how p s).1.c.artifacts[p.id]? = some v := by rw [h1]; exact ha
  generalize (getAH Y D n how p s).1 = s1 at ha' hre
  refine ⟨v, hx, ha', hre.inv.dynKnown _ (hre.inv.artDyn _ ((mem_getElem _ _).2 ⟨v, ha'⟩)), fun how' s'' r' hl' hw' => ?_⟩
  obtain ⟨D', n', ord', rfl, rfl⟩ := went_plain hw'
  obtain ⟨w', _, h4⟩ := execH_shallow (Y := Y) (s := s1) D' n' ord' (.lookup how' p) rfl
  rw [stepH_live rfl hl']
  have h5 : exec Y n' ord' s1 (.lookup how' p) = (s1, .val (.optArt (some (seen Y how' v)))) := by
    simp only [exec, lookupBy_eq hre.inv _ hl', ha', Res.map, Option.map]
  rw [h5] at h4
  rcases h4 with h4 | ⟨h4, _⟩
  · exact .inl h4
  · refine .inr ⟨?_, h4⟩
    cases how' with
    | cloned => rfl
    | _ =>
      simp only [execH, lookupByH] at h4
      exfalso
      have h6 := lookupBy_eq (Y := Y) hre.inv (p := p) (s := s1)
      first
        | rw [show lookup Y p s1.c = lookupBy Y .bin p s1.c from rfl, h6 _ hl', ha'] at h4; cases h4
        | rw [show lookupRef Y p s1.c = lookupBy Y .ref p s1.c from rfl, h6 _ hl', ha'] at h4; cases h4

/-- **C03** `get` answers with an error only if nothing was cached before. -/
theorem C03_any_hooks_only_uncached (h : Reachable Y s) {p : Promise σ} {e : σ.E} {how : Access}
    (hw : Went Y s (.get how p) s' (.val (.art (.error e)))) : Uncached s p.id := by
  have hl := hw.live trivial rfl
  unfold Uncached
  cases ha : s.c.artifacts[p.id]? with
  | none => rfl
  | some v =>
    rcases (C01_any_hooks h hl ha hw).2.2 with h | ⟨_, h⟩ <;> cases h

/-- **C03** An error, or a panic of whatever is called, does not get cached: if nothing was cached before, then afterwards there
is nothing either, unless an artifact was really built meanwhile. -/
theorem C03_any_hooks (h : Reachable Y s) {p : Promise σ} {how : Access} (hw : Went Y s (.get how p) s' r) (hg : r.goesOn)
    (hu : Uncached s p.id) : Uncached s' p.id ∨ ∃ q v, q.id = p.id ∧ Since s s' (.built q v) := by
  have hl := hw.live hg rfl
  have hre := h.went hw hg
  obtain ⟨D, n, ord, rfl, rfl⟩ := went_plain hw
  rw [stepH_get hl] at hre ⊢
  simp only at hre ⊢
  have hm := ((getAH_ok Y D n).1 how p s h.inv).micros
  unfold Uncached at hu ⊢
  cases ha : (getAH Y D n how p s).1.c.artifacts[p.id]? with
  | none => exact .inl rfl
  | some v =>
    rcases hm.art_built (a := p.id) with he | ⟨q, v, h1, _, h2⟩
    · rw [he, hu] at ha; cases ha
    · exact .inr ⟨q, v, h1, h2⟩

/-! ## C05, C06, C10, C13: invalidation and purging -/

/-- What does not call hooks in the middle: without hooks, but for what the last one did to the outside world, or its panic. -/
theorem went_shallow {op : Op σ} (ho : op.deep = false) {p : Promise σ} (hop : op.promise? = some p) (hl : s.live p = true)
    (hw : Went Y s op s' r) : ∃ n ord w, s' = { (step Y n ord s op).1 with w := w } ∧
      (r = (step Y n ord s op).2 ∨ r = .panic .user) := by
  obtain ⟨D, n, ord, rfl, rfl⟩ := went_plain hw
  rw [stepH_live hop hl]
  obtain ⟨w, h1, h2⟩ := execH_shallow (Y := Y) (s := s) D n ord op ho
  refine ⟨n, ord, w, ?_⟩
  rw [step_live hop hl]
  exact ⟨h1, h2.imp id And.left⟩

/-- **C05** `invalidate(p)` removes exactly the artifacts of `p` and of its transitive users, and forgets exactly what their
builders used, also if the doctor panics when it is told about it.  **C06** It touches no dynamic state, no builder becomes known
or unknown, and the builders outside of the cache stay.  **C10** It returns, or the doctor panics. -/
theorem C05_any_hooks (h : Reachable Y s) {p : Promise σ} (hl : s.live p = true) (hw : Went Y s (.invalidate p) s' r) :
    (r = .val .unit ∨ r = .panic .user) ∧
    (∀ a v, Cached s' a v ↔ Cached s a v ∧ ¬ Hit (UsesNow s) p.id a) ∧
    (∀ u d, UsesNow s' u d ↔ UsesNow s u d ∧ ¬ Hit (UsesNow s) p.id u) ∧
    (∀ a d, HasState s' a d ↔ HasState s a d) ∧ (∀ a, Known s' a ↔ Known s a) ∧ s'.heap = s.heap := by
  obtain ⟨n, ord, w, rfl, hr⟩ := went_shallow rfl rfl hl hw
  obtain ⟨h1, h2⟩ := C05_invalidate_exact h hl n ord
  obtain ⟨h3, h4, _, _, _, h5⟩ := C06_invalidate_keeps h hl n ord
  refine ⟨by rw [h1] at hr; exact hr, fun a v => ?_, fun u d => C05_invalidate_uses h hl n ord u d, h3, h4, h5⟩
  have := h2 a v
  rw [← absDep_eq h.inv, ← usesNow_eq'] at this
  exact this

/-- **C13** `purge(p)` does the same, and forgets `p`: its artifact, its dynamic state, that it is known. -/
theorem C13_any_hooks (h : Reachable Y s) {p : Promise σ} (hl : s.live p = true) (hw : Went Y s (.purge p) s' r) :
    (r = .val .unit ∨ r = .panic .user) ∧
    Uncached s' p.id ∧ (∀ d, ¬ HasState s' p.id d) ∧ ¬ Known s' p.id ∧
    (∀ a v, Cached s' a v ↔ Cached s a v ∧ ¬ Hit (UsesNow s) p.id a) ∧
    (∀ u d, UsesNow s' u d ↔ UsesNow s u d ∧ ¬ Hit (UsesNow s) p.id u) ∧
    (∀ a d, a ≠ p.id → (HasState s' a d ↔ HasState s a d)) ∧
    (∀ a, a ≠ p.id → (Known s' a ↔ Known s a)) ∧ s'.heap = s.heap := by
  obtain ⟨n, ord, w, rfl, hr⟩ := went_shallow rfl rfl hl hw
  have h0 := (C10_invalidation_total h hl n ord id).2.1
  obtain ⟨h1, h2, h3, h4, h5, h6, h7, _, h8⟩ := C13_purge h hl n ord
  refine ⟨by rw [h0] at hr; exact hr, h1, h2, h3, fun a v => ?_, h7, h5, h6, h8⟩
  have := h4 a v
  rw [← absDep_eq h.inv, ← usesNow_eq'] at this
  exact this

/-! ## C11, C10: `dyn_state_mut` -/

/-- If the doctor does not panic, the rest of `dyn_state_mut` runs as it would without doctor, in the world that the doctor left. -/
theorem dynStateMutH_cases (hi : Inv Y s) (D : Hooks σ) (ord : HashOrder) (p : Promise σ) (f : σ.S → σ.S) :
    ∃ w, w = (D s.w (.report (.invalidate p))).1 ∧ ((dynStateMutH Y D ord p f s).2 = .panic .user ∨
      dynStateMutH Y D ord p f s = dynStateMut Y ord p f { s with w := w }) := by
  obtain ⟨c', he, hd⟩ := invalidate_spec hi ord p
  unfold dynStateMutH dynStateMut
  rw [he]
  simp only
  unfold callHook
  split
  · exact ⟨_, rfl, .inl rfl⟩
  · next w hw =>
    refine ⟨_, rfl, .inr ?_⟩
    simp only at hw
    simp only [he, hw]

/-- **C11** Whenever `dyn_state_mut(p)` hands out a state, it is the one that `p` had, or, if it had none, one that its
initialiser has just made; afterwards the state is what was written; exactly the artifacts of `p` and of its transitive users are
gone; no other state, and nothing else, has changed. -/
theorem C11_any_hooks (h : Reachable Y s) {p : Promise σ} {f : σ.S → σ.S} {d : σ.S}
    (hw : Went Y s (.dynStateMut p f) s' (.val (.state d))) :
    (HasState s p.id d ∨ (∀ d0, ¬ HasState s p.id d0) ∧ ∃ w, Y.init p.b w = (s'.w, some d)) ∧
    HasState s' p.id (f d) ∧
    (∀ a v, Cached s' a v ↔ Cached s a v ∧ ¬ Hit (UsesNow s) p.id a) ∧
    (∀ u d, UsesNow s' u d ↔ UsesNow s u d ∧ ¬ Hit (UsesNow s) p.id u) ∧
    (∀ a d', a ≠ p.id → (HasState s' a d' ↔ HasState s a d')) ∧
    (∀ a, Known s' a ↔ Known s a ∨ a = p.id) ∧ s'.heap = s.heap := by
  have hl := hw.live trivial rfl
  have huse := (C72_changes_exact h (.cons (op := .dynStateMut p f) (p := p) rfl hw trivial (.nil s'))).2
  simp only [Affected, List.mem_singleton, exists_eq_left] at huse
  obtain ⟨D, n, ord, rfl, hr⟩ := went_plain hw
  clear hw
  rw [stepH_live rfl hl] at hr huse ⊢
  simp only [execH] at hr huse ⊢
  obtain ⟨w, _, e | e⟩ := dynStateMutH_cases h.inv D ord p f
  · rw [e] at hr; cases hr
  · have hw : Reachable Y { s with w := w } := h.step 0 ord (.world fun _ => w) trivial
    have hs : step Y n ord { s with w := w } (.dynStateMut p f) = ((dynStateMutH Y D ord p f s).1, .val (.state d)) := by
      rw [step_live rfl (show ({ s with w := w } : St σ).live p = true from hl), hr]
      simp only [exec, ← e]
    obtain ⟨h1, h2, h3, h4, h5, h6⟩ := C11_dyn_state_mut hw hs
    refine ⟨?_, h2, fun a v => ?_, huse, h4, h5, h6⟩
    · rcases h1 with ⟨h1, _⟩ | ⟨h1, h1'⟩
      · exact .inl h1
      · exact .inr ⟨h1, w, h1'⟩
    · have := h3 a v
      rw [← absDep_eq hw.inv, ← usesNow_eq'] at this
      exact this

/-- **C10** Invalidation always comes to an end: `invalidate` and `purge` return, unless the doctor panics; `dyn_state_mut`, too,
unless an initialiser panics. -/
theorem C10_any_hooks (h : Reachable Y s) {p : Promise σ} (hl : s.live p = true) {op : Op σ} (hop : op.changes p)
    (hw : Went Y s op s' r) : r = .val .unit ∨ (∃ d, r = .val (.state d)) ∨ r = .panic .user ∨ r = .panic .init ∨ r = .stuck := by
  cases op with
  | invalidate q => cases hop; exact (C05_any_hooks h hl hw).1.imp id fun h => .inr (.inl h)
  | purge q => cases hop; exact (C13_any_hooks h hl hw).1.imp id fun h => .inr (.inl h)
  | dynStateMut q f =>
    cases hop
    obtain ⟨D, n, ord, rfl, rfl⟩ := went_plain hw
    clear hw
    rw [stepH_live rfl hl]
    simp only [execH]
    obtain ⟨w, _, e | e⟩ := dynStateMutH_cases h.inv D ord p f
    · rw [e]; simp [Res.map]
    · have hw : Reachable Y { s with w := w } := h.step 0 ord (.world fun _ => w) trivial
      have := (C10_invalidation_total hw (p := p) hl n ord f).2.2
      rw [step_live rfl (show ({ s with w := w } : St σ).live p = true from hl)] at this
      simp only [exec, ← e] at this
      rcases this with ⟨d, h⟩ | h | h
      · exact .inr (.inl ⟨d, h⟩)
      · exact .inr (.inr (.inr (.inl h)))
      · exact .inr (.inr (.inr (.inr h)))
  | _ => exact hop.elim

/-! ## C18: lookups -/

/-- **C18** Looking something up changes nothing, and tells what is there; `lookup_cloned` runs one `Clone` implementation, if
there is something, which can only do something outside of the cache, or panic. -/
theorem C18_any_hooks (h : Reachable Y s) {p : Promise σ} (hl : s.live p = true) :
    (∀ how s' r, Went Y s (.lookup how p) s' r → (∃ w, s' = { s with w := w }) ∧ (how ≠ .cloned ∨ Uncached s p.id → s' = s) ∧
      (r = .val (.optArt ((s.c.artifacts[p.id]?).map (seen Y how))) ∨ how = .cloned ∧ ¬ Uncached s p.id ∧ r = .panic .user)) ∧
    (∀ s' r, Went Y s (.getDynState p) s' r → s' = s ∧ r = .val (.optState (s.c.dynStates[p.id]?))) ∧
    (∀ s' r, Went Y s (.isKnown p) s' r → s' = s ∧ ∃ b, r = .val (.bool b) ∧ (b = true ↔ Known s p.id)) ∧
    ∀ s' r, Went Y s .numKnown s' r → s' = s ∧ r = .val (.nat s.c.known.size) := by
  have hC := C18_lookups_pure h hl
  refine ⟨fun how s' r hw => ?_, fun s' r hw => ?_, fun s' r hw => ?_, fun s' r hw => ?_⟩
  all_goals obtain ⟨D, n, ord, rfl, rfl⟩ := went_plain hw
  · rw [stepH_live rfl hl]
    have hx := lookupBy_eq (Y := Y) h.inv (s := s) (p := p)
    have e1 := hx .bin hl
    have e2 := hx .ref hl
    simp only [lookupBy] at e1 e2
    simp only [execH]
    cases how with
    | bin => simp only [lookupByH, e1, Res.map]; exact ⟨⟨s.w, rfl⟩, by simp, by simp⟩
    | ref => simp only [lookupByH, e2, Res.map]; exact ⟨⟨s.w, rfl⟩, by simp, by simp⟩
    | cloned =>
      simp only [lookupByH, e2]
      cases ha : s.c.artifacts[p.id]? with
      | none => simp only [Option.map, Res.map]; exact ⟨⟨s.w, rfl⟩, by simp, by simp⟩
      | some v =>
        simp only [Option.map]
        obtain ⟨w, e | e⟩ := callHook_cases D (.clone (seen Y .ref v)) s
          (fun s => (s, .val (some (Y.clone (seen Y .ref v)))) : St σ → St σ × Res (Option σ.V))
        all_goals
          rw [e]
          refine ⟨⟨w, rfl⟩, fun hh => ?_, ?_⟩
          · rcases hh with hh | hh
            · exact absurd rfl hh
            · rw [Uncached, ha] at hh; cases hh
        · simp [Uncached, ha, Res.map]
        · exact .inl rfl
  · rw [stepH_live rfl hl]
    have := (hC n ord).2.1
    rw [step_live rfl hl] at this
    exact ⟨congrArg Prod.fst this, congrArg Prod.snd this⟩
  · rw [stepH_live rfl hl]
    refine ⟨rfl, _, rfl, ?_⟩
    simp [isKnown, Known]
  · exact ⟨rfl, rfl⟩

/-! ## C22: when mutable access panics -/

/-- **C22** is false, whatever the hooks: `get_mut(p)` panics exactly if some other builder is recorded to have used `p`, before any
hook has been called. -/
theorem C22_any_hooks (h : Reachable Y s) {p : Promise σ} (hl : s.live p = true) {f : σ.V → σ.V} (hw : Went Y s (.getMut p f) s' r) :
    r = .panic .noCounterpart ↔ ∃ x, x ≠ p.id ∧ UsesNow s x p.id := by
  simp only [usesNow_iff]
  obtain ⟨D, n, ord, rfl, rfl⟩ := went_plain hw
  clear hw
  rw [stepH_live rfl hl]
  simp only [execH]
  rcases getMut_spec_of h.inv (getAH_ok Y D n).2 ord hl with ⟨c', he, hx⟩ | ⟨c1, h1, h2⟩
  · rw [he]; exact ⟨fun _ => hx, fun _ => rfl⟩
  · rcases h.inv.invalidateDependents ord p.id with ⟨c', he', _⟩ | ⟨c', he', hall, hinv, _⟩
    · rw [h1] at he'; cases he'
    · rw [h1] at he'
      cases he'
      constructor
      · intro hp
        exfalso
        rcases h2 with ⟨c2, v, _, _, _, _, he⟩ | ⟨h3, he⟩
        · rw [he] at hp
          simp only at hp
          split at hp <;> cases hp
        · rw [he] at hp
          have hn := ((getAH_ok Y D n).2.ran p { s with c := c1 } hinv hl h3).noInt
          generalize buildNH Y D n p { s with c := c1 } = x at hp hn
          obtain ⟨s2, r⟩ := x
          rcases r with (e | v) | k | _ | _
          · cases hp
          · simp only at hp
            split at hp <;> cases hp
          · simp only at hp
            cases hp
            exact noInternal_ne hn rfl
          · cases hp
          · cases hp
      · rintro ⟨x, hx1, hx2⟩
        exact absurd (hall x hx2) hx1

/-! ## C26, C32: depth -/

/-- **C26** In a directed acyclic graph, `get(p)` never needs more stack than the height of `p` in the graph requires (plus one, for
`p` itself), whatever the hooks do. -/
theorem C26_any_hooks {rk : σ.B → Nat} (hrk : Ranked Y rk) (h : Reachable Y s) (p : Promise σ) (how : Access) (D : Hooks σ) (n : Nat)
    (ord : HashOrder) (hn : rk p.b < n) : (stepH Y D n ord s (.get how p)).2 ≠ .overflow := by
  cases hl : s.live p with
  | false => simp [stepH, Op.promise?, hl]
  | true =>
    rw [stepH_get hl]
    have := getAH_no_overflow hrk D n how p h.inv hn
    generalize (getAH Y D n how p s).2 = r at this ⊢
    cases r <;> simp_all [Res.map]

/-- **C26** Whatever the graph and the hooks: if `get(p)` does not overflow the stack, then more stack changes neither its effect nor
its result. -/
theorem C26_any_hooks_more_stack (p : Promise σ) (how : Access) (D : Hooks σ) {n n' : Nat} (ord ord' : HashOrder) (hn : n ≤ n')
    (hno : (stepH Y D n ord s (.get how p)).2 ≠ .overflow) :
    stepH Y D n' ord' s (.get how p) = stepH Y D n ord s (.get how p) := by
  cases hl : s.live p with
  | false => simp [stepH, Op.promise?, hl]
  | true =>
    rw [stepH_get hl] at hno
    rw [stepH_get hl, stepH_get hl, getAH_mono D hn how p s]
    intro h
    simp only [h, Res.map] at hno
    exact hno rfl

/-- **C32** Builders that on every path to a result resolve one another, none of them cached, never return, neither an artifact nor
an error, whatever the hooks do. -/
theorem C32_any_hooks {C : Promise σ → Prop} (hC : ∀ p, C p → (Y.code p.b).demands C) (h : Reachable Y s)
    (hn : ∀ p, C p → s.live p = true → Uncached s p.id) {p : Promise σ} (hp : C p) {how : Access} (hw : Went Y s (.get how p) s' r)
    (x : Ans σ) : r ≠ .val x := by
  rintro rfl
  have hl := hw.live trivial rfl
  obtain ⟨D, n, ord, rfl, hr⟩ := went_plain hw
  rw [stepH_get hl] at hr
  simp only at hr
  have := (getAH_none hC D n how p h.inv hn).2 hp
  generalize (getAH Y D n how p s).2 = y at this hr
  cases y with
  | val r => exact absurd rfl (this r)
  | _ => cases hr

/-! ## C48, C49: contracts -/

/-- **C48** Whatever the program does, as long as builders, initialisers, the program and the hooks keep the contract, so do all
answers, also those given while hooks are running. -/
theorem C48_any_hooks {K : Contract σ} (hK : K.Kept Y) (h : UnderContract Y K s) {D : Hooks σ}
    (hD : ∀ w h, K.world w → K.world (D w h).1) {n : Nat} {ord : HashOrder} {op : Op σ} {x : Ans σ}
    (hr : (stepH Y D n ord s op).2 = .val x) : K.answer Y op x := by
  have hh := h.holds hK
  have hi := h.reachable.inv
  have live : ∀ p, op.promise? = some p → s.live p = true := by
    intro p hp
    cases hl : s.live p with
    | true => rfl
    | false => simp [stepH, hp, hl] at hr
  have shallow : op.deep = false → K.answer Y op x := by
    intro ho
    obtain ⟨w, _, h2⟩ := execH_shallow (Y := Y) (s := s) D n ord op ho
    have e1 : stepH Y D n ord s op = execH Y D n ord s op := by
      unfold stepH
      cases hp : op.promise? with
      | none => rfl
      | some p => simp only [live p hp, if_true]
    have e2 : step Y n ord s op = exec Y n ord s op := by
      unfold step
      cases hp : op.promise? with
      | none => rfl
      | some p => simp only [live p hp, if_true]
    rw [e1] at hr
    rcases h2 with h2 | ⟨h2, _⟩
    · exact C48_contracts hK h (n := n) (ord := ord) (by rw [e2, ← h2]; exact hr)
    · rw [h2] at hr; cases hr
  cases op with
  | get how p =>
    have hl := live p rfl
    rw [stepH_get hl] at hr
    simp only at hr
    have hk := ((buildNH_keeps hK hD n).2 how p s hi hh).2
    generalize (getAH Y D n how p s).2 = x at hr hk
    rcases x with (e | v) | _ | _ | _ <;> cases hr
    · obtain ⟨r0, h1, h2⟩ := hk _ rfl
      cases r0 with
      | ok v => cases h2
      | error e' => cases h2; exact h1
    · obtain ⟨r0, h1, h2⟩ := hk _ rfl
      cases r0 with
      | ok v' => cases h2; exact ⟨v', rfl, h1⟩
      | error e => cases h2
  | getMut p f =>
    have hl := live p rfl
    rw [stepH_live rfl hl] at hr
    simp only [execH] at hr
    rcases getMut_spec_of hi (getAH_ok Y D n).2 ord hl with ⟨c', he, _⟩ | ⟨c1, h1, ⟨c2, v, _, h12, h2, hinv, he⟩ | ⟨h2, he⟩⟩
    · rw [he] at hr; cases hr
    · obtain ⟨t1, i1⟩ := invalidateDependents_rest (A := Op.keeps K) hi h1
      have j1 := (holds_ops hK).rest _ _ hi t1 hh
      obtain ⟨t2, i2⟩ := invalidateDependents_rest (A := Op.keeps K) i1 h12
      have j2 := (holds_ops hK).rest _ _ i1 t2 j1
      rw [he] at hr
      simp only at hr
      cases hw : writeArt Y p f v c2 with
      | none => rw [hw] at hr; cases hr
      | some c' =>
        rw [hw] at hr
        cases hr
        exact j2.art _ _ _ (i2.live_art_known hl h2) h2
    · obtain ⟨t1, i1⟩ := invalidateDependents_rest (A := Op.keeps K) hi h1
      have j1 := (holds_ops hK).rest _ _ hi t1 hh
      rw [he] at hr
      have j2 := ((buildNH_keeps hK hD n).1 p { s with c := c1 } i1 hl h2 j1).2
      generalize buildNH Y D n p { s with c := c1 } = x at hr j2
      obtain ⟨s', y⟩ := x
      rcases y with (_ | v) | k | _ | _
      · cases hr; exact j2 _ rfl
      · simp only at hr
        cases hw : writeArt Y p f v s'.c with
        | none => rw [hw] at hr; cases hr
        | some c' => rw [hw] at hr; cases hr; exact j2 _ rfl
      · cases hr
      · cases hr
      · cases hr
  | dynStateMut p f =>
    have hl := live p rfl
    rw [stepH_live rfl hl] at hr
    simp only [execH] at hr
    cases x with
    | state d =>
      obtain ⟨w, hw, e | e⟩ := dynStateMutH_cases hi D ord p f
      · rw [e] at hr; cases hr
      · have hkw : K.world w := hw ▸ hD _ _ hh.world
        have hs : step Y n ord { s with w := w } (.dynStateMut p f) = ((dynStateMutH Y D ord p f s).1, .val (.state d)) := by
          rw [step_live rfl (show ({ s with w := w } : St σ).live p = true from hl), ← hr]
          simp only [exec, ← e]
        rcases (C11_dyn_state_mut (h.reachable.step 0 ord (.world fun _ => w) trivial) hs).1 with ⟨hd, _⟩ | ⟨_, hin⟩
        · have hk := hi.live_known hl
          exact hh.state _ _ _ (makeKnown_dyn hi hk ((mem_getElem _ _).2 ⟨d, hd⟩)) hd
        · exact (hK.init p.b w hkw).2 d (congrArg Prod.snd hin)
    | _ => exact trivial
  | _ => exact shallow rfl

/-- **C49** The builders in `I` return no error unless a builder outside of `I` does: then no operation ever answers with an error for
a builder in `I`, whatever the hooks do, now or in the past. -/
theorem C49_any_hooks {I : σ.B → Prop} (hI : ∀ b, I b → (Y.code b).infallible I) (h : Reachable Y s) {op : Op σ} {p : Promise σ}
    (hop : (∃ how, op = .get how p) ∨ ∃ f, op = .getMut p f) (hp : I p.b) (hw : Went Y s op s' r) (e : σ.E) :
    r ≠ .val (.art (.error e)) := by
  rintro rfl
  let K : Contract σ := ⟨fun _ _ => True, fun b _ => ¬ I b, fun _ _ => True, fun _ => True⟩
  have key : ∀ (b : σ.B) (c : Prog σ), (I b → c.infallible I) → c.keeps Y K b := by
    intro b c
    induction c with
    | ret r =>
      intro hc
      cases r with
      | ok v => trivial
      | error e => intro hb; obtain ⟨v, hv⟩ := hc hb; cases hv
    | panic => intro _; trivial
    | resolve how q k ih =>
      intro hc
      exact ⟨fun v _ => ih _ fun hb => (hc hb).1 _, fun e he => ih _ fun hb => (hc hb).2 e he⟩
    | myState f k ih => exact fun hc d _ => ⟨trivial, ih _ fun hb => hc hb d⟩
    | world f k ih => exact fun hc d _ => ⟨trivial, ih _ fun hb => hc hb d⟩
    | alloc q k ih => exact fun hc => ih hc
    | free a k ih => exact fun hc => ih hc
  have hK : K.Kept Y := ⟨fun b => key b _ (hI b), fun _ _ _ => ⟨trivial, fun _ _ => trivial⟩⟩
  obtain ⟨D, n, ord, e', hr⟩ := went_plain hw
  have hu : UnderContract Y K s := by
    clear hr hw e'
    induction h with
    | new w => exact .new w trivial
    | step n ord op _ hg ih => exact .step n ord op ih (by cases op <;> simp [Op.keeps, K]) hg
    | hooked D n ord op _ hg ih => exact .hooked D n ord op ih (by cases op <;> simp [Op.keeps, K]) (fun _ _ _ => trivial) hg
  have := C48_any_hooks hK hu (D := D) (fun _ _ _ => trivial) hr.symm
  rcases hop with ⟨how, rfl⟩ | ⟨f, rfl⟩ <;> exact this hp

end

namespace Demo

/-- `C01_any_hooks`: `get_cloned(2)`, the `Clone` implementation counting. -/
example : ∃ w, (stepH Y (tick 99) 9 ord s1 (.get .cloned (P 2))).1 = { s1 with w := w } :=
  (C01_any_hooks reach1 (p := P 2) (how := .cloned) (v := (110 : Nat)) (by decide) (by unfold Cached; decide)
    (.hooked (tick 99) 9 ord)).1

/-- ... or panicking. -/
example : (stepH Y (tick s1.w) 9 ord s1 (.get .cloned (P 2))).2 = .panic .user := rfl

/-- Something to build: 1 was invalidated, under a doctor that panicked at the end. -/
def s34 : St sig := (stepH Y (tick s1.w) 9 ord s1 (.invalidate (P 1))).1

theorem reach34 : Reachable Y s34 := .hooked (tick s1.w) 9 ord (.invalidate (P 1)) reach1 (by decide +kernel)

set_option smartUnfolding false in
/-- `C02_any_hooks`: a `get` during which eight hooks are called. -/
example : ∃ v : Nat, (110 : Nat) = seen Y .bin v ∧ Cached (stepH Y (tick 99) 9 ord s34 (.get .bin (P 2))).1 12 v := by
  have hw : Went Y s34 (.get .bin (P 2)) (stepH Y (tick 99) 9 ord s34 (.get .bin (P 2))).1 (.val (.art (.ok (110 : Nat)))) :=
    .hooked (tick 99) 9 ord
  obtain ⟨v, h1, h2, _⟩ := C02_any_hooks reach34 (p := P 2) (x := (110 : Nat)) (how := .bin) hw
  exact ⟨v, h1, h2⟩

set_option smartUnfolding false in
/-- `C03_any_hooks`: the doctor panics when it is told about the use that 2 makes of 1; nothing is cached for 2. -/
example : (stepH Y (tick (s34.w + 1)) 9 ord s34 (.get .bin (P 2))).2 = .panic .user ∧
    (Uncached (stepH Y (tick (s34.w + 1)) 9 ord s34 (.get .bin (P 2))).1 12 ∨
      ∃ q v, q.id = 12 ∧ Since s34 (stepH Y (tick (s34.w + 1)) 9 ord s34 (.get .bin (P 2))).1 (.built q v)) := by
  refine ⟨rfl, C03_any_hooks reach34 (p := P 2) (.hooked (tick (s34.w + 1)) 9 ord) (by decide +kernel) ?_⟩
  unfold Uncached; decide +kernel

set_option smartUnfolding false in
/-- `C05_any_hooks`: the doctor panicked when it was told that 1 is invalidated; the artifact of 0 stays, those of 1 and 2 are gone. -/
example : (stepH Y (tick s1.w) 9 ord s1 (.invalidate (P 1))).2 = .panic .user ∧
    (Cached s34 10 (5 : Nat) ∧ ¬ Hit (UsesNow s1) 11 10) ∧ Uncached s34 12 := by
  have h := (C05_any_hooks reach1 (p := P 1) (by decide) (.hooked (tick s1.w) 9 ord)).2.1 10 (5 : Nat)
  have hc : Cached s34 10 (5 : Nat) := by unfold Cached; decide +kernel
  exact ⟨rfl, ⟨hc, (h.1 hc).2⟩, by unfold Uncached; decide +kernel⟩

/-- `C13_any_hooks`: a purge; the doctor panics. -/
example : ¬ Known (stepH Y (tick s1.w) 9 ord s1 (.purge (P 1))).1 11 ∧ HasState s1 11 (1 : Nat) ∧
    ∀ d, ¬ HasState (stepH Y (tick s1.w) 9 ord s1 (.purge (P 1))).1 11 d := by
  have h := C13_any_hooks reach1 (p := P 1) (by decide) (.hooked (tick s1.w) 9 ord)
  exact ⟨h.2.2.2.1, by unfold HasState; decide +kernel, h.2.2.1⟩

set_option smartUnfolding false in
/-- `C11_any_hooks`: the state of 1 is set to 8, under a counting doctor. -/
example : HasState (stepH Y (tick 99) 9 ord s1 (.dynStateMut (P 1) fun _ => (8 : Nat))).1 11 (8 : Nat) := by
  have hw : Went Y s1 (.dynStateMut (P 1) fun _ => (8 : Nat)) (stepH Y (tick 99) 9 ord s1 (.dynStateMut (P 1) fun _ => (8 : Nat))).1
      (.val (.state (1 : Nat))) := .hooked (tick 99) 9 ord
  exact (C11_any_hooks reach1 hw).2.1

/-- `C10_any_hooks` applies to it. -/
example := C10_any_hooks reach1 (p := P 1) (op := .dynStateMut (P 1) fun _ => (8 : Nat)) (by decide) rfl
  (.hooked (tick s1.w) 9 ord)

/-- `C18_any_hooks`: a lookup. -/
example : (stepH Y (tick s1.w) 9 ord s1 (.lookup .bin (P 2))).1 = s1 :=
  ((C18_any_hooks reach1 (p := P 2) (by decide)).1 .bin _ _ (.hooked (tick s1.w) 9 ord)).2.1 (.inl (by simp))

set_option smartUnfolding false in
/-- `C22_any_hooks`: 0 was used, 2 was not. -/
example : (stepH Y (tick s1.w) 9 ord s1 (.getMut (P 0) (· + 1))).2 = .panic .noCounterpart ∧
    ¬ ∃ x, x ≠ (12 : Id) ∧ UsesNow s1 x 12 := by
  refine ⟨rfl, fun h => ?_⟩
  have := (C22_any_hooks reach1 (p := P 2) (f := (· + 1)) (by decide) (.hooked (tick 99) 9 ord)).2 h
  have h2 : (stepH Y (tick 99) 9 ord s1 (.getMut (P 2) (· + 1))).2 = .val (.art (.ok (110 : Nat))) := rfl
  rw [h2] at this
  cases this

/-- `C26_any_hooks`: a chain of doubled edges, which three frames suffice for. -/
example (D : Hooks sig) : (stepH dagY D 3 ord dagS (.get .bin (P 2))).2 ≠ .overflow :=
  C26_any_hooks dagY_ranked dagS_reachable (P 2) .bin D 3 ord (by decide)

set_option smartUnfolding false in
/-- `C26_any_hooks_more_stack`. -/
example : stepH Y (tick 99) 50 ord s34 (.get .bin (P 2)) = stepH Y (tick 99) 9 ord s34 (.get .bin (P 2)) :=
  C26_any_hooks_more_stack (P 2) .bin (tick 99) ord ord (by omega) (by
    rw [show (stepH Y (tick 99) 9 ord s34 (.get .bin (P 2))).2 = .val (.art (.ok (110 : Nat))) from rfl]
    simp)

/-- `C32_any_hooks`: 7 and 8 resolve each other. -/
example (D : Hooks sig) (n : Nat) (x : Ans sig) : (stepH Y D n ord (after [.get .bin (P 2)]) (.get .bin (P 7))).2 ≠ .val x :=
  C32_any_hooks (C := fun p => p = P 7 ∨ p = P 8) (by
    rintro p (rfl | rfl)
    · exact Or.inl (Or.inr rfl)
    · exact Or.inl (Or.inl rfl)) (reach _ (by decide))
    (by rintro p (rfl | rfl) _ <;> rfl) (.inl rfl) (.hooked D n ord) x

theorem under34 : UnderContract Y K (after []) := by
  refine UnderContract.runOps _ (.new (σ := sig) (0 : Nat) trivial) ?_ (by decide)
  intro op hop
  simp only [List.append_nil, allocs, List.mem_map] at hop
  obtain ⟨b, _, rfl⟩ := hop
  trivial

set_option smartUnfolding false in
/-- `C48_any_hooks`: under a counting doctor, an even number. -/
example : (stepH Y (tick 99) 9 ord (after []) (.get .bin (P 0))).2 = .val (.art (.ok (0 : Nat))) ∧
    K.answer Y (.get .bin (P 0)) (.art (.ok (0 : Nat))) :=
  ⟨rfl, C48_any_hooks K_kept (s := after []) under34 (D := tick 99) (fun _ _ _ => trivial) (n := 9) (ord := ord) rfl⟩

/-- `C49_any_hooks`: 2 is infallible. -/
example (D : Hooks sig) (n : Nat) (e : Nat) : (stepH Y D n ord s1 (.get .bin (P 2))).2 ≠ .val (.art (.error e)) :=
  C49_any_hooks (I := fun b : Nat => b < 3) (Y := Y) (by
    intro b hb
    have hb : b < (3 : Nat) := hb
    match b with
    | 0 => exact fun d => ⟨d, rfl⟩
    | 1 => exact ⟨fun v => ⟨_, rfl⟩, fun e he => (he (by show (0 : Nat) < 3; omega)).elim⟩
    | 2 =>
      exact ⟨fun v => ⟨fun w => ⟨_, rfl⟩, fun e he => (he (by show (0 : Nat) < 3; omega)).elim⟩,
        fun e he => (he (by show (1 : Nat) < 3; omega)).elim⟩
    | b + 3 => exact absurd hb (by omega)) reach1
    (Or.inl ⟨.bin, rfl⟩) (show (2 : Nat) < 3 by omega) (.hooked D n ord) e

end Demo

end Daab
