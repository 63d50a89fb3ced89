import Verif.PureH
import Verif.Props22

/-!
# C68: coherence

In a system of builders that form a directed acyclic graph (their code may otherwise do what it likes: look at and change the
outside world, fail, panic, change its dynamic state, create and drop builders), each artifact in the cache was computed from
exactly the artifacts that are in the cache now.
-/

open Std

namespace Daab

variable {σ : Sig} {Y : Sys σ} {s : St σ}

/-! ## Specification -/

/-- `MadeFrom Y s p prog d r d'`: the code `prog` of `p`, started with the dynamic state `d` of `p`, can return `r` and leave
the dynamic state `d'`, in such a way that each successful resolve of a builder `q` answered the artifact of `q` that is in
the cache `s`, and that each resolve, successful or not, is on record in `s`.  What it sees of the outside world is arbitrary,
as are the errors. -/
inductive MadeFrom (Y : Sys σ) (s : St σ) (p : Promise σ) : Prog σ → σ.S → Except σ.E σ.V → σ.S → Prop
  | ret {r : Except σ.E σ.V} {d : σ.S} : MadeFrom Y s p (.ret r) d r d
  | got {how : Access} {q : Promise σ} {k : Except σ.E σ.V → Prog σ} {x : σ.V} {d d' : σ.S} {r : Except σ.E σ.V} :
      UsesNow s p.id q.id → s.c.known[q.id]? = some q.b → Cached s q.id x →
      MadeFrom Y s p (k (.ok (seen Y how x))) d r d' → MadeFrom Y s p (.resolve how q k) d r d'
  | failed {how : Access} {q : Promise σ} {k : Except σ.E σ.V → Prog σ} {e : σ.E} {d d' : σ.S} {r : Except σ.E σ.V} :
      UsesNow s p.id q.id → s.c.known[q.id]? = some q.b →
      MadeFrom Y s p (k (.error e)) d r d' → MadeFrom Y s p (.resolve how q k) d r d'
  | myState {f : σ.S → σ.S} {k : σ.S → Prog σ} {d d' : σ.S} {r : Except σ.E σ.V} :
      MadeFrom Y s p (k d) (f d) r d' → MadeFrom Y s p (.myState f k) d r d'
  | world {f : σ.W → σ.W} {k : σ.W → Prog σ} (w : σ.W) {d d' : σ.S} {r : Except σ.E σ.V} :
      MadeFrom Y s p (k w) d r d' → MadeFrom Y s p (.world f k) d r d'
  | alloc {q : Promise σ} {k : Prog σ} {d d' : σ.S} {r : Except σ.E σ.V} :
      MadeFrom Y s p k d r d' → MadeFrom Y s p (.alloc q k) d r d'
  | free {a : Id} {k : Prog σ} {d d' : σ.S} {r : Except σ.E σ.V} :
      MadeFrom Y s p k d r d' → MadeFrom Y s p (.free a k) d r d'

/-- The event is about a new artifact of `a`: one was built, or one was written through a mutable reference. -/
def Event.remakes (a : Id) : Event σ → Prop
  | .built q _ => q.id = a
  | .write x _ => x = a
  | _ => False

/-- The last thing that happened to the artifact of `a` is that the caller of a `get_mut` or `lookup_mut` wrote `v` in its
place. -/
def Written (s : St σ) (a : Id) (v : σ.V) : Prop :=
  ∃ new old, s.c.log = new ++ .write a v :: old ∧ ∀ e ∈ new, ¬ e.remakes a

/-- The artifact `v` of `p` is what the code of `p` made from what is in the cache now, its dynamic state being the one it left;
or `v` was written in the place of that. -/
def MadeNow (Y : Sys σ) (s : St σ) (p : Promise σ) (v : σ.V) : Prop :=
  ∃ d d' v0, MadeFrom Y s p (Y.code p.b) d (.ok v0) d' ∧ HasState s p.id d' ∧ (v = v0 ∨ Written s p.id v)

/-! ## The invariant -/

/-- All artifacts are coherent. -/
def Coherent (Y : Sys σ) (s : St σ) : Prop :=
  ∀ (p : Promise σ) v, s.c.known[p.id]? = some p.b → Cached s p.id v → MadeNow Y s p v

theorem MadeFrom.transport {s' : St σ} {p : Promise σ} {prog : Prog σ} {d d' : σ.S} {r : Except σ.E σ.V}
    (h : MadeFrom Y s p prog d r d')
    (hq : ∀ q : Promise σ, UsesNow s p.id q.id → s.c.known[q.id]? = some q.b →
      UsesNow s' p.id q.id ∧ s'.c.known[q.id]? = some q.b ∧ ∀ x, Cached s q.id x → Cached s' q.id x) :
    MadeFrom Y s' p prog d r d' := by
  induction h with
  | ret => exact .ret
  | @got how q k x d d' r h1 h2 h3 _ ih =>
    obtain ⟨g1, g2, g3⟩ := hq q h1 h2
    exact .got g1 g2 (g3 x h3) ih
  | @failed how q k e d d' r h1 h2 _ ih =>
    obtain ⟨g1, g2, _⟩ := hq q h1 h2
    exact .failed g1 g2 ih
  | myState _ ih => exact .myState ih
  | world w _ ih => exact .world w ih
  | alloc _ ih => exact .alloc ih
  | free _ ih => exact .free ih

/-- What building does to a cache, when no builder of rank `N` or more is built. -/
structure Upward (rk : σ.B → Nat) (N : Nat) (s s' : St σ) : Prop where
  known : ∀ (a : Id) b, s.c.known[a]? = some b → s'.c.known[a]? = some b
  uses : ∀ u d, UsesNow s u d → UsesNow s' u d
  art : ∀ a v, Cached s a v → Cached s' a v
  dyn : ∀ a d, ¬ Uncached s a → HasState s a d → HasState s' a d
  frame : ∀ (a : Id) b, s.c.known[a]? = some b → N ≤ rk b →
    s'.c.artifacts[a]? = s.c.artifacts[a]? ∧ s'.c.dynStates[a]? = s.c.dynStates[a]?
  edges : ∀ (u a : Id) b, s.c.known[a]? = some b → N ≤ rk b → UsesNow s' u a → UsesNow s u a
  ranks : ∀ u a, UsesNow s' u a → UsesNow s u a ∨
    ∃ bu ba, s'.c.known[u]? = some bu ∧ s'.c.known[a]? = some ba ∧ rk ba < rk bu
  log : ∃ new, s'.c.log = new ++ s.c.log ∧ ∀ a, ¬ Uncached s a → ∀ e ∈ new, ¬ Event.remakes a e

theorem Upward.refl {rk : σ.B → Nat} {N : Nat} (s : St σ) : Upward rk N s s :=
  ⟨fun _ _ h => h, fun _ _ h => h, fun _ _ h => h, fun _ _ _ h => h, fun _ _ _ _ => ⟨rfl, rfl⟩,
    fun _ _ _ _ _ h => h, fun _ _ h => Or.inl h, [], rfl, fun _ _ _ h => by cases h⟩

theorem Upward.trans {rk : σ.B → Nat} {N : Nat} {s1 s2 : St σ} (h1 : Upward rk N s s1) (h2 : Upward rk N s1 s2) :
    Upward rk N s s2 where
  known a b h := h2.known a b (h1.known a b h)
  uses u d h := h2.uses u d (h1.uses u d h)
  art a v h := h2.art a v (h1.art a v h)
  dyn a d hn h := by
    refine h2.dyn a d ?_ (h1.dyn a d hn h)
    intro hu
    cases hv : s.c.artifacts[a]? with
    | none => exact hn hv
    | some v =>
      have := h1.art a v hv
      unfold Cached at this
      rw [hu] at this; cases this
  frame a b hk hN := by
    obtain ⟨e1, e2⟩ := h1.frame a b hk hN
    obtain ⟨e3, e4⟩ := h2.frame a b (h1.known a b hk) hN
    exact ⟨e3.trans e1, e4.trans e2⟩
  edges u a b hk hN h := h1.edges u a b hk hN (h2.edges u a b (h1.known a b hk) hN h)
  ranks u a h := by
    rcases h2.ranks u a h with h | h
    · refine (h1.ranks u a h).imp_right ?_
      rintro ⟨bu, ba, e1, e2, e3⟩
      exact ⟨bu, ba, h2.known _ _ e1, h2.known _ _ e2, e3⟩
    · exact Or.inr h
  log := by
    obtain ⟨n1, e1, f1⟩ := h1.log
    obtain ⟨n2, e2, f2⟩ := h2.log
    refine ⟨n2 ++ n1, by rw [e2, e1, List.append_assoc], fun a ha e he => ?_⟩
    rcases List.mem_append.1 he with he | he
    · refine f2 a ?_ e he
      intro hu
      cases hv : s.c.artifacts[a]? with
      | none => exact ha hv
      | some v =>
        have := h1.art a v hv
        unfold Cached at this
        rw [hu] at this; cases this
    · exact f1 a ha e he

theorem Upward.mono {rk : σ.B → Nat} {N N' : Nat} {s' : St σ} (h : Upward rk N s s') (hN : N ≤ N') : Upward rk N' s s' :=
  ⟨h.known, h.uses, h.art, h.dyn, fun a b hk hN' => h.frame a b hk (Nat.le_trans hN hN'),
    fun u a b hk hN' => h.edges u a b hk (Nat.le_trans hN hN'), h.ranks, h.log⟩

/-- Nothing in the cache changed but the log. -/
theorem Upward.same {rk : σ.B → Nat} {N : Nat} {s' : St σ} (h1 : s'.c.artifacts = s.c.artifacts)
    (h2 : s'.c.dynStates = s.c.dynStates) (h3 : s'.c.dependents = s.c.dependents) (h4 : s'.c.known = s.c.known)
    (h5 : ∃ new, s'.c.log = new ++ s.c.log ∧ ∀ a, ¬ Uncached s a → ∀ e ∈ new, ¬ Event.remakes a e) : Upward rk N s s' where
  known a b h := by rw [h4]; exact h
  uses u d h := by simp only [UsesNow, h3]; exact h
  art a v h := by simp only [Cached, h1]; exact h
  dyn a d _ h := by simp only [HasState, h2]; exact h
  frame a b _ _ := by rw [h1, h2]; exact ⟨rfl, rfl⟩
  edges u a b _ _ h := by simpa only [UsesNow, h3] using h
  ranks u a h := Or.inl (by simpa only [UsesNow, h3] using h)
  log := h5

theorem MadeFrom.up {rk : σ.B → Nat} {N : Nat} {s' : St σ} {p : Promise σ} {prog : Prog σ} {d d' : σ.S}
    {r : Except σ.E σ.V} (h : MadeFrom Y s p prog d r d') (hg : Upward rk N s s') : MadeFrom Y s' p prog d r d' :=
  h.transport fun _ h1 h2 => ⟨hg.uses _ _ h1, hg.known _ _ h2, fun _ hx => hg.art _ _ hx⟩

theorem Written.up {rk : σ.B → Nat} {N : Nat} {s' : St σ} {a : Id} {v : σ.V} (h : Written s a v) (hg : Upward rk N s s')
    (ha : ¬ Uncached s a) : Written s' a v := by
  obtain ⟨n1, o, e1, f1⟩ := h
  obtain ⟨n2, e2, f2⟩ := hg.log
  refine ⟨n2 ++ n1, o, by rw [e2, e1, List.append_assoc], fun e he => ?_⟩
  rcases List.mem_append.1 he with he | he
  · exact f2 a ha e he
  · exact f1 e he

theorem MadeNow.up {rk : σ.B → Nat} {N : Nat} {s' : St σ} {p : Promise σ} {v : σ.V} (h : MadeNow Y s p v)
    (hg : Upward rk N s s') (ha : ¬ Uncached s p.id) : MadeNow Y s' p v := by
  obtain ⟨d, d', v0, h1, h2, h3⟩ := h
  exact ⟨d, d', v0, h1.up hg, hg.dyn _ _ ha h2, h3.imp_right fun h => h.up hg ha⟩

theorem not_uncached {a : Id} {v : σ.V} (h : Cached s a v) : ¬ Uncached s a := by
  intro hu; unfold Cached at h; rw [hu] at h; cases h

/-- No artifact is added. -/
theorem Coherent.up (h : Coherent Y s) {rk : σ.B → Nat} {N : Nat} {s' : St σ} (hi : Inv Y s) (hg : Upward rk N s s')
    (ha : s'.c.artifacts = s.c.artifacts) : Coherent Y s' := by
  intro p v hk hv
  have hv0 : Cached s p.id v := by simpa only [Cached, ha] using hv
  have hk0 : s.c.known[p.id]? = some p.b := by
    obtain ⟨b, hb⟩ := hi.art_known hv0
    have := hg.known _ _ hb
    rw [hk] at this
    cases this
    exact hb
  exact (h p v hk0 hv0).up hg (not_uncached hv0)

/-! ## Building -/

/-- What is known of a result `x` obtained from the state `s`. -/
structure CohRes (Y : Sys σ) (rk : σ.B → Nat) (N : Nat) {α : Type} (s : St σ) (x : St σ × Res α) (P : St σ → α → Prop) :
    Prop where
  coh : Coherent Y x.1
  up : Upward rk N s x.1
  val : ∀ r, x.2 = .val r → P x.1 r

theorem Upward.world {rk : σ.B → Nat} {N : Nat} (s : St σ) (w : σ.W) : Upward rk N s { s with w := w } :=
  .same rfl rfl rfl rfl ⟨[], rfl, fun _ _ _ h => by cases h⟩

/-- Calling a hook before going on. -/
theorem CohRes.hook {rk : σ.B → Nat} {N : Nat} {α : Type} {P : St σ → α → Prop} (D : Hooks σ) (k : Hook σ)
    {s0 : St σ} {next : St σ → St σ × Res α} (hi : Inv Y s) (h : Coherent Y s) (hg : Upward rk N s0 s)
    (hn : ∀ w, Coherent Y { s with w := w } → Upward rk N s0 { s with w := w } →
      CohRes Y rk N s0 (next { s with w := w }) P) : CohRes Y rk N s0 (callHook D k s next) P := by
  obtain ⟨w, e | e⟩ := callHook_cases D k s next
  all_goals
    have g1 : Upward rk N s0 { s with w := w } := hg.trans (.world s w)
    have h1 : Coherent Y { s with w := w } := h.up hi (rk := rk) (N := N) (.world s w) rfl
    rw [e]
  · exact ⟨h1, g1, fun r hr => by cases hr⟩
  · exact hn w h1 g1

/-- What a resolving builder gets: an error, or the artifact that is then in the cache. -/
def Answers (Y : Sys σ) (how : Access) (q : Promise σ) (s' : St σ) (r : Except σ.E σ.V) : Prop :=
  s'.c.known[q.id]? = some q.b ∧ ((∃ e, r = .error e) ∨ ∃ x, r = .ok (seen Y how x) ∧ Cached s' q.id x)

/-- Specification of a getter. -/
def GetCoh (Y : Sys σ) (rk : σ.B → Nat) (g : Getter σ) : Prop := ∀ how q s, Inv Y s → Coherent Y s →
  ∀ N, rk q.b < N → CohRes Y rk N s (g how q s) (Answers Y how q)

theorem tracked_up {rk : σ.B → Nat} {N : Nat} {p : Promise σ} (hr : Running Y p s) {q : Promise σ} (hl : s.live q = true)
    (hq : rk q.b < N) (hqp : rk q.b < rk p.b) :
    Upward rk N s (tracked p q s) where
  known a b h := (hr.tracked hl).known_mono a b h
  uses u d h := by
    rw [usesNow_iff] at h ⊢
    refine (addEdge_dep _ _ _ _ _).2 (Or.inl ?_)
    simpa [St.onCache, Dep] using h
  art a v h := by
    simp only [Cached, tracked, St.onCache, addEdge, Cache.emit, makeKnown_artifacts]; exact h
  dyn a d _ h := by
    simp only [HasState, tracked, St.onCache, addEdge, Cache.emit, makeKnown_dynStates]; exact h
  frame a b _ _ := by
    simp only [tracked, St.onCache, addEdge, Cache.emit, makeKnown_artifacts, makeKnown_dynStates, and_self]
  edges u a b hk hN h := by
    rw [usesNow_iff] at h ⊢
    rcases (addEdge_dep _ _ _ _ _).1 h with h | ⟨_, rfl⟩
    · simpa [St.onCache, Dep] using h
    · have h1 := (hr.tracked hl).known_mono _ _ hk
      have h2 : (makeKnown q s.c).known[q.id]? = some q.b := hr.inv.live_known hl
      have h3 : (makeKnown q s.c).known[q.id]? = some b := h1
      rw [h2] at h3
      cases h3
      omega
  ranks u a h := by
    rw [usesNow_iff] at h ⊢
    rcases (addEdge_dep _ _ _ _ _).1 h with h | ⟨rfl, rfl⟩
    · exact Or.inl (by simpa [St.onCache, Dep] using h)
    · exact Or.inr ⟨p.b, q.b, (hr.tracked hl).known_mono _ _ hr.known, hr.inv.live_known hl, hqp⟩
  log := by
    have : (makeKnown q s.c).log = s.c.log := by unfold makeKnown; split <;> rfl
    refine ⟨[.resolve p q], by simp only [tracked, St.onCache, addEdge, Cache.emit, this]; rfl, fun a _ e he => ?_⟩
    cases List.mem_singleton.1 he
    exact id

/-- What running the code of `p` gives. -/
structure RunCoh (Y : Sys σ) (rk : σ.B → Nat) (p : Promise σ) (prog : Prog σ) (d : σ.S) (s : St σ)
    (x : St σ × Res (Except σ.E σ.V)) : Prop where
  coh : Coherent Y x.1
  up : Upward rk (rk p.b + 1) s x.1
  uncached : Uncached x.1 p.id
  peers : ∀ (a : Id) b, a ≠ p.id → s.c.known[a]? = some b → rk p.b ≤ rk b →
    x.1.c.artifacts[a]? = s.c.artifacts[a]? ∧ x.1.c.dynStates[a]? = s.c.dynStates[a]?
  deps : ∀ (u a : Id) b, s.c.known[a]? = some b → rk p.b ≤ rk b → UsesNow x.1 u a → UsesNow s u a
  val : ∀ r, x.2 = .val r → ∃ d', HasState x.1 p.id d' ∧ MadeFrom Y x.1 p prog d r d'

theorem RunCoh.stop {rk : σ.B → Nat} {p : Promise σ} {prog : Prog σ} {d : σ.S} {s0 : St σ} (h : Coherent Y s)
    (hu : Upward rk (rk p.b + 1) s0 s) (hn : Uncached s p.id)
    (hp : ∀ (a : Id) b, a ≠ p.id → s0.c.known[a]? = some b → rk p.b ≤ rk b →
      s.c.artifacts[a]? = s0.c.artifacts[a]? ∧ s.c.dynStates[a]? = s0.c.dynStates[a]?)
    (he : ∀ (u a : Id) b, s0.c.known[a]? = some b → rk p.b ≤ rk b → UsesNow s u a → UsesNow s0 u a)
    {r : Res (Except σ.E σ.V)} (hr : ∀ v, r ≠ .val v) : RunCoh Y rk p prog d s0 (s, r) :=
  ⟨h, hu, hn, hp, he, fun v e => absurd e (hr v)⟩

/-- A step before the rest of the code. -/
theorem RunCoh.after {rk : σ.B → Nat} {p : Promise σ} {prog prog' : Prog σ} {d d1 : σ.S} {s0 : St σ}
    {x : St σ × Res (Except σ.E σ.V)} (h : RunCoh Y rk p prog' d1 s x) (hu : Upward rk (rk p.b + 1) s0 s)
    (hp : ∀ (a : Id) b, a ≠ p.id → s0.c.known[a]? = some b → rk p.b ≤ rk b →
      s.c.artifacts[a]? = s0.c.artifacts[a]? ∧ s.c.dynStates[a]? = s0.c.dynStates[a]?)
    (he : ∀ (u a : Id) b, s0.c.known[a]? = some b → rk p.b ≤ rk b → UsesNow s u a → UsesNow s0 u a)
    (hm : ∀ r d', MadeFrom Y x.1 p prog' d1 r d' → MadeFrom Y x.1 p prog d r d') : RunCoh Y rk p prog d s0 x := by
  refine ⟨h.coh, hu.trans h.up, h.uncached, fun a b ha hk hr => ?_,
    fun u a b hk hr hx => he u a b hk hr (h.deps u a b (hu.known a b hk) hr hx), fun r e => ?_⟩
  · obtain ⟨e1, e2⟩ := hp a b ha hk hr
    obtain ⟨e3, e4⟩ := h.peers a b ha (hu.known a b hk) hr
    exact ⟨e3.trans e1, e4.trans e2⟩
  · obtain ⟨d', h1, h2⟩ := h.val r e
    exact ⟨d', h1, hm r d' h2⟩

theorem runProgH_coh {rk : σ.B → Nat} (D : Hooks σ) {g : Getter σ} (hg : GetRan Y g) (hs : GetCoh Y rk g)
    {p : Promise σ} (prog : Prog σ) (hp : prog.only fun q => rk q.b < rk p.b) (hr : Running Y p s) (h : Coherent Y s)
    (hn : Uncached s p.id) {d : σ.S} (hd : HasState s p.id d) :
    RunCoh Y rk p prog d s (runProgH Y D g p prog s) := by
  have same : ∀ s : St σ, ∀ (a : Id) b, a ≠ p.id → s.c.known[a]? = some b → rk p.b ≤ rk b →
      s.c.artifacts[a]? = s.c.artifacts[a]? ∧ s.c.dynStates[a]? = s.c.dynStates[a]? := fun _ _ _ _ _ _ => ⟨rfl, rfl⟩
  have same' : ∀ {s : St σ}, ∀ (u a : Id) b, s.c.known[a]? = some b → rk p.b ≤ rk b → UsesNow s u a → UsesNow s u a :=
    fun _ _ _ _ _ h => h
  induction prog generalizing s d with
  | ret r =>
    cases r with
    | error e =>
      exact ⟨h, .refl s, hn, same s, same', by rintro r ⟨⟩; exact ⟨d, hd, .ret⟩⟩
    | ok v =>
      simp only [runProgH]
      split
      · exact ⟨h, .refl s, hn, same s, same', by rintro r ⟨⟩; exact ⟨d, hd, .ret⟩⟩
      · exact .stop h (.refl s) hn (same s) same' fun v e => by cases e
  | panic => exact .stop h (.refl s) hn (same s) same' fun v e => by cases e
  | resolve how q k ih =>
    cases hl : s.live q with
    | false =>
      rw [runProgH_resolve_dead hl]
      exact .stop h (.refl s) hn (same s) same' fun v e => by cases e
    | true =>
      rw [runProgH_resolve hr hl]
      have r1 := hr.micros (hr.tracked hl)
      have g1 : Upward rk (rk p.b) s (tracked p q s) := tracked_up hr hl hp.1 hp.1
      have s1 : Coherent Y (tracked p q s) := h.up hr.inv g1
        (by simp only [tracked, St.onCache, addEdge, Cache.emit, makeKnown_artifacts])
      have hdep : UsesNow (tracked p q s) p.id q.id :=
        (usesNow_iff ..).2 ((addEdge_dep _ _ _ _ _).2 (Or.inr ⟨rfl, rfl⟩))
      obtain ⟨w, e | e⟩ := callHook_cases D (.report (.resolve p q)) (tracked p q s)
        (fun s => andThen (g how q s) fun r s => runProgH Y D g p (k r) s)
      all_goals
        have g2 : Upward rk (rk p.b) s { tracked p q s with w := w } := g1.trans (.world _ w)
        have s2 : Coherent Y { tracked p q s with w := w } := s1.up r1.inv (rk := rk) (N := 0) (.world _ w) rfl
        rw [e]
      · refine .stop s2 (g2.mono (Nat.le_succ _)) ?_ (fun a b _ hk hr' => g2.frame a b hk hr')
          (fun u a b hk hr' => g2.edges u a b hk hr') fun v e => by cases e
        exact (g2.frame _ _ hr.known (Nat.le_refl _)).1.trans hn
      · replace r1 : Running Y p { tracked p q s with w := w } := r1.micro (.world w)
        obtain ⟨s3, g3, hval⟩ := hs how q _ r1.inv s2 (rk p.b) hp.1
        have m2 := (hg how q _ r1.inv).micros
        have hdep' : UsesNow { tracked p q s with w := w } p.id q.id := hdep
        generalize g how q { tracked p q s with w := w } = x at s3 g3 hval m2
        obtain ⟨sx, r⟩ := x
        have g4 := g2.trans g3
        have g5 := g4.mono (Nat.le_succ (rk p.b))
        have hn' : Uncached sx p.id := (g4.frame _ _ hr.known (Nat.le_refl _)).1.trans hn
        have hd' : HasState sx p.id d := (g4.frame _ _ hr.known (Nat.le_refl _)).2.trans hd
        have hpe : ∀ (a : Id) b, a ≠ p.id → s.c.known[a]? = some b → rk p.b ≤ rk b →
            sx.c.artifacts[a]? = s.c.artifacts[a]? ∧ sx.c.dynStates[a]? = s.c.dynStates[a]? :=
          fun a b _ hk hr' => g4.frame a b hk hr'
        cases r with
        | val r =>
          obtain ⟨hk, ha⟩ := hval r rfl
          have hrun := ih r (hp.2 r) (r1.micros m2) s3 hn' hd'
          refine hrun.after g5 hpe (fun u a b hk hr' => g4.edges u a b hk hr') fun r' d' hm => ?_
          have hu := hrun.up.uses _ _ (g3.uses _ _ hdep')
          have hk' := hrun.up.known _ _ hk
          rcases ha with ⟨e, rfl⟩ | ⟨x, rfl, hx⟩
          · exact .failed hu hk' hm
          · exact .got hu hk' (hrun.up.art _ _ hx) hm
        | _ => exact .stop s3 g5 hn' hpe (fun u a b hk hr' => g4.edges u a b hk hr') fun v e => by cases e
  | myState f k ih =>
    obtain ⟨d1, hd1, hst, e⟩ := hr.myState_eq f
    have : d1 = d := by unfold HasState at hd; rw [hd] at hd1; cases hd1; rfl
    subst this
    rw [runProgH_myState, e]
    split
    · next ht =>
      have hf : ∀ a : Id, a ≠ p.id → (wrote p (f d1) s).c.dynStates[a]? = s.c.dynStates[a]? := by
        intro a ha
        simp only [wrote, Cache.emit]; grind
      have hne : ∀ a : Id, ¬ Uncached s a → a ≠ p.id := by rintro a ha rfl; exact ha hn
      have g1 : Upward rk (rk p.b + 1) s (wrote p (f d1) s) := by
        refine ⟨fun _ _ h => h, fun _ _ h => h, fun _ _ h => h, fun a d ha h => (hf a (hne a ha)).trans h,
          fun a b hk hN => ⟨rfl, hf a ?_⟩, fun _ _ _ _ _ h => h, fun _ _ h => Or.inl h, [.setDyn p (f d1)], rfl, fun a _ e he => ?_⟩
        · rintro rfl
          rw [hr.known] at hk
          cases hk
          omega
        · cases List.mem_singleton.1 he
          exact id
      have r1 := hr.micro (.setDyn p (f d1) hr.known hr.dyn ht)
      have hd2 : HasState (wrote p (f d1) s) p.id (f d1) := by simp [HasState, wrote, Cache.emit]
      exact (ih d1 (hp d1) r1 (h.up hr.inv g1 rfl) hn hd2).after g1 (fun a b ha _ _ => ⟨rfl, hf a ha⟩)
        (fun _ _ _ _ _ h => h)
        fun r d' hm => .myState hm
    · exact .stop h (.refl s) hn (same s) same' fun v e => by cases e
  | world f k ih =>
    have r1 := hr.micro (Micro.world (Y := Y) (s := s) (f s.w))
    have g1 : Upward rk (rk p.b + 1) s { s with w := f s.w } := .world s _
    exact (ih s.w (hp _) r1 (h.up hr.inv g1 rfl) hn hd).after g1 (same s) same' fun r d' hm => .world _ hm
  | alloc q k ih =>
    simp only [runProgH]
    cases ha : allocB q s with
    | none => exact .stop h (.refl s) hn (same s) same' fun v e => by cases e
    | some s1 =>
      have hc : s1.c = s.c := allocB_c ha
      have g1 : Upward rk (rk p.b + 1) s s1 :=
        .same (by rw [hc]) (by rw [hc]) (by rw [hc]) (by rw [hc]) ⟨[], by rw [hc]; rfl, fun _ _ _ h => by cases h⟩
      exact (ih hp (hr.micro (.alloc q ha)) (h.up hr.inv g1 (by rw [hc])) (by simpa only [Uncached, hc] using hn)
        (by simpa only [HasState, hc] using hd)).after g1 (fun a b _ _ _ => by rw [hc]; exact ⟨rfl, rfl⟩)
        (fun u a b _ _ h => by simpa only [UsesNow, hc] using h)
        fun r d' hm => .alloc hm
  | free a k ih =>
    have g1 : Upward rk (rk p.b + 1) s (freeB a s) := .same rfl rfl rfl rfl ⟨[], rfl, fun _ _ _ h => by cases h⟩
    exact (ih hp (hr.micro (.free a)) (h.up hr.inv g1 rfl) hn hd).after g1 (same s) same' fun r d' hm => .free hm

/-- Creating the dynamic state of `p`. -/
theorem ensureDyn_up {rk : σ.B → Nat} (hi : Inv Y s) {p : Promise σ} (hl : s.live p = true) {N : Nat} (hN : rk p.b < N) :
    Upward rk N s (ensureDyn Y p s).1 ∧ (ensureDyn Y p s).1.c.artifacts = s.c.artifacts ∧
    ∀ u a, UsesNow (ensureDyn Y p s).1 u a → UsesNow s u a := by
  obtain ⟨r2, k2, a2, d2⟩ := ensureDyn_ran hi hl (Y := Y)
  have hk : ∀ (a : Id) b, s.c.known[a]? = some b → (ensureDyn Y p s).1.c.known[a]? = some b :=
    fun a b h => r2.micros.known_mono a b h
  have hart : (ensureDyn Y p s).1.c.artifacts = s.c.artifacts := by
    unfold ensureDyn
    simp only [St.onCache]
    repeat' split
    all_goals simp [Cache.emit]
  have hdep : (ensureDyn Y p s).1.c.dependents = s.c.dependents := by
    unfold ensureDyn
    simp only [St.onCache]
    repeat' split
    all_goals simp [Cache.emit]
  have hdyn : ∀ a : Id, a ≠ p.id ∨ a ∈ s.c.dynStates →
      (ensureDyn Y p s).1.c.dynStates[a]? = s.c.dynStates[a]? := by
    intro a ha
    unfold ensureDyn
    simp only [St.onCache, makeKnown_dynStates]
    repeat' split
    all_goals simp only [Cache.emit, makeKnown_dynStates]
    grind
  have hlog : ∃ new, (ensureDyn Y p s).1.c.log = new ++ s.c.log ∧
      ∀ a, ¬ Uncached s a → ∀ e ∈ new, ¬ Event.remakes a e := by
    have : (makeKnown p s.c).log = s.c.log := by unfold makeKnown; split <;> rfl
    unfold ensureDyn
    simp only [St.onCache]
    repeat' split
    all_goals simp only [Cache.emit, this]
    all_goals first
      | exact ⟨[], rfl, fun _ _ _ h => by cases h⟩
      | exact ⟨[_], rfl, fun a _ e he => by cases List.mem_singleton.1 he; exact id⟩
  refine ⟨⟨hk, fun u d h => by simpa only [UsesNow, hdep] using h, fun a v h => by simpa only [Cached, hart] using h,
    fun a d ha h => ?_, fun a b hb hNb => ⟨by rw [hart], hdyn a (Or.inl ?_)⟩,
    fun u a b _ _ h => by simpa only [UsesNow, hdep] using h,
    fun u a h => Or.inl (by simpa only [UsesNow, hdep] using h), hlog⟩, hart, fun u a h => by simpa only [UsesNow, hdep] using h⟩
  · exact (hdyn a (Or.inr ((mem_getElem _ _).2 ⟨d, h⟩))).trans h
  · rintro rfl
    have := hk _ _ hb
    rw [k2] at this
    cases this
    omega

/-- What a build gives: an error, or the artifact that is then in the cache. -/
def BuildAnswers (p : Promise σ) (s' : St σ) (r : Except σ.E σ.V) : Prop :=
  s'.c.known[p.id]? = some p.b ∧ ((∃ e, r = .error e) ∨ ∃ x, r = .ok x ∧ Cached s' p.id x)

/-- Specification of a build function. -/
def BuildCoh (Y : Sys σ) (rk : σ.B → Nat) (bld : BuildFn σ) : Prop := ∀ p s, Inv Y s → Coherent Y s → s.live p = true →
  s.c.artifacts[p.id]? = none → ∀ N, rk p.b < N → CohRes Y rk N s (bld p s) (BuildAnswers p)

theorem buildH_coh {rk : σ.B → Nat} (hrk : Ranked Y rk) (D : Hooks σ) {g : Getter σ} (hg : GetRan Y g) (hs : GetCoh Y rk g) :
    BuildCoh Y rk (buildH Y D g) := by
  intro p s hi h hl ha N hN
  obtain ⟨hg1, ha1, _⟩ := ensureDyn_up (rk := rk) (Y := Y) hi hl hN
  rcases buildH_cases D g hi hl ha with ⟨s1, e1, e⟩ | ⟨s1, e1, e⟩ | ⟨s1, d, e1, e2⟩
  · rw [e]; rw [e1] at hg1 ha1
    exact ⟨h.up hi hg1 ha1, hg1, fun r hr => by cases hr⟩
  · rw [e]; rw [e1] at hg1 ha1
    exact ⟨h.up hi hg1 ha1, hg1, fun r hr => by cases hr⟩
  · rw [e2]
    rw [e1] at hg1 ha1
    obtain ⟨r1, m1, a1, d1⟩ := ensureDyn_running hi hl ha e1
    have i1 : Inv Y s1 := by
      have := (ensureDyn_ran hi hl (Y := Y)).1.inv hi
      rw [e1] at this
      exact this
    refine CohRes.hook D _ i1 (h.up hi hg1 ha1) hg1 fun w h1 g1 => ?_
    replace r1 : Running Y p (entered p { s1 with w := w }) := r1.micro (.world w)
    have gE : Upward rk N { s1 with w := w } (entered p { s1 with w := w }) :=
      .same rfl rfl rfl rfl ⟨[.call p], rfl, fun a _ e he => by cases List.mem_singleton.1 he; exact id⟩
    have g1' : Upward rk N s (entered p { s1 with w := w }) := g1.trans gE
    have hn1 : Uncached (entered p { s1 with w := w }) p.id := by
      show s1.c.artifacts[p.id]? = none
      rw [ha1]; exact ha
    have hrun := runProgH_coh D hg hs (Y.code p.b) (hrk p.b) r1 (h.up hi g1' ha1) hn1 (d := d) d1
    have r2 := r1.micros (runProgH_ran D hg (Y.code p.b) r1.inv r1.known r1.dyn r1.pend).1.micros
    generalize runProgH Y D g p (Y.code p.b) (entered p { s1 with w := w }) = x at hrun r2
    obtain ⟨s2, r⟩ := x
    have g12 : Upward rk N s s2 := g1'.trans (hrun.up.mono hN)
    have h2 := hrun.coh
    rcases r with (er | v) | _ | _ | _
    · refine ⟨h2, g12, ?_⟩
      rintro r ⟨⟩
      exact ⟨r2.known, Or.inl ⟨_, rfl⟩⟩
    · simp only [finishH]
      obtain ⟨d', hd', hm⟩ := hrun.val _ rfl
      refine CohRes.hook D _ r2.inv h2 g12 fun w' h3 g3 => ?_
      obtain ⟨w2, _, e3, e4⟩ := storeH_finish D p v { s2 with w := w' }
      have hne : ∀ a : Id, ¬ Uncached s2 a → a ≠ p.id := by rintro a hna rfl; exact hna hrun.uncached
      have g4 : Upward rk N s2 (storeH D p v { s2 with w := w' }).1 := by
        rw [e3]
        refine ⟨fun _ _ h => h, fun _ _ h => h, fun a x hx => ?_, fun _ _ _ h => h, fun a b hk hNb => ⟨?_, rfl⟩,
          fun _ _ _ _ _ h => h, fun _ _ h => Or.inl h, [.built p v], rfl, fun a hna e he => ?_⟩
        · exact (finish_artifacts (hne a (not_uncached hx))).trans hx
        · refine finish_artifacts ?_
          rintro rfl
          rw [r2.known] at hk
          cases hk
          omega
        · cases List.mem_singleton.1 he
          exact fun h => hne a hna h.symm
      have hv : Cached (storeH D p v { s2 with w := w' }).1 p.id v := by
        rw [e3]; simp [Cached, finish, St.onCache]
      refine ⟨?_, g12.trans g4, ?_⟩
      · intro q x hk hx
        rw [e3] at hk hx
        by_cases hqp : q.id = p.id
        · have hk2 : s2.c.known[q.id]? = some q.b := hk
          rw [hqp, r2.known] at hk2
          have : q = p := by cases q; cases p; cases hqp; cases hk2; rfl
          subst this
          have : x = v := by
            simp only [Cached, finish, St.onCache] at hx
            grind
          subst this
          exact ⟨d, d', x, hm.up g4, by rw [e3]; exact hd', Or.inl rfl⟩
        · have hx' : Cached s2 q.id x := (finish_artifacts hqp).symm.trans hx
          exact (h2 q x hk hx').up g4 (not_uncached hx')
      · intro r hr
        refine ⟨g4.known _ _ r2.known, ?_⟩
        rcases e4 with e4 | e4
        · rw [e4] at hr
          cases hr
          exact Or.inr ⟨v, rfl, hv⟩
        · rw [e4] at hr; cases hr
    · exact ⟨h2, g12, fun r hr => by cases hr⟩
    · exact ⟨h2, g12, fun r hr => by cases hr⟩
    · exact ⟨h2, g12, fun r hr => by cases hr⟩

theorem finishH_uses (D : Hooks σ) (p : Promise σ) (x : St σ × Res (Except σ.E σ.V)) (u a : Id) :
    UsesNow (finishH D p x).1 u a ↔ UsesNow x.1 u a := by
  obtain ⟨s2, r⟩ := x
  rcases r with (er | v) | _ | _ | _
  · exact .rfl
  · simp only [finishH]
    obtain ⟨w, e | e⟩ := callHook_cases D (.report (.built p v)) s2 (storeH D p v)
    · rw [e]; exact .rfl
    · rw [e]
      obtain ⟨w2, _, e3, _⟩ := storeH_finish D p v { s2 with w := w }
      rw [e3]; exact .rfl
  all_goals exact .rfl

/-- While `p` is built, nothing starts to use `p`. -/
theorem buildH_deps {rk : σ.B → Nat} (hrk : Ranked Y rk) (D : Hooks σ) {g : Getter σ} (hg : GetRan Y g) (hs : GetCoh Y rk g)
    {p : Promise σ} (hi : Inv Y s) (h : Coherent Y s) (hl : s.live p = true) (ha : s.c.artifacts[p.id]? = none) {u : Id}
    (hu : UsesNow (buildH Y D g p s).1 u p.id) : UsesNow s u p.id := by
  obtain ⟨hg1, ha1, hd1⟩ := ensureDyn_up (rk := rk) (Y := Y) hi hl (Nat.lt_succ_self (rk p.b))
  rcases buildH_cases D g hi hl ha with ⟨s1, e1, e⟩ | ⟨s1, e1, e⟩ | ⟨s1, d, e1, e2⟩
  · rw [e] at hu; rw [e1] at hd1; exact hd1 _ _ hu
  · rw [e] at hu; rw [e1] at hd1; exact hd1 _ _ hu
  · rw [e2] at hu
    rw [e1] at hg1 ha1 hd1
    refine hd1 _ _ ?_
    obtain ⟨r1, m1, a1, d1⟩ := ensureDyn_running hi hl ha e1
    obtain ⟨w, e | e⟩ := callHook_cases D (.handle p) s1 fun s =>
        finishH D p (runProgH Y D g p (Y.code p.b) (entered p s))
    · rw [e] at hu; exact hu
    · rw [e, finishH_uses] at hu
      replace r1 : Running Y p (entered p { s1 with w := w }) := r1.micro (.world w)
      have gE : Upward rk (rk p.b + 1) s1 (entered p { s1 with w := w }) :=
        .same rfl rfl rfl rfl ⟨[.call p], rfl, fun a _ e he => by cases List.mem_singleton.1 he; exact id⟩
      have hn1 : Uncached (entered p { s1 with w := w }) p.id := by
        show s1.c.artifacts[p.id]? = none
        rw [ha1]; exact ha
      have hrun := runProgH_coh D hg hs (Y.code p.b) (hrk p.b) r1 (h.up hi (hg1.trans gE) ha1) hn1 (d := d) d1
      exact hrun.deps _ _ _ r1.known (Nat.le_refl _) hu

theorem getByH_coh {rk : σ.B → Nat} (D : Hooks σ) {bld : BuildFn σ} (hb : BuildOk Y bld)
    (hs : BuildCoh Y rk bld) : GetCoh Y rk (getByH Y D bld) := by
  have hby : ∀ how p s, Inv Y s → Coherent Y s → s.live p = true → ∀ N, rk p.b < N →
      CohRes Y rk N s (getBy Y bld how p s) (Answers Y how p) := by
    intro how p s hi h hl N hN
    cases ha : s.c.artifacts[p.id]? with
    | some v =>
      rw [getBy_hit hi bld how hl ha]
      refine ⟨h, .refl s, ?_⟩
      rintro r ⟨⟩
      refine ⟨?_, Or.inr ⟨v, rfl, ha⟩⟩
      obtain ⟨b, hb⟩ := hi.art_known ha
      rw [hi.heapKnown _ _ _ hb (live_iff.1 hl)] at hb
      exact hb
    | none =>
      rw [getBy_miss hi hb how hl ha]
      obtain ⟨h1, h2, h3⟩ := hs p s hi h hl ha N hN
      refine ⟨h1, h2, ?_⟩
      intro r hr
      simp only at hr
      generalize (bld p s).2 = y at hr h3
      rcases y with (e | v) | _ | _ | _
      · cases hr; exact ⟨(h3 _ rfl).1, Or.inl ⟨e, rfl⟩⟩
      · cases hr
        obtain ⟨hk, ⟨e, he⟩ | ⟨x, he, hx⟩⟩ := h3 _ rfl
        · cases he
        · cases he; exact ⟨hk, Or.inr ⟨v, rfl, hx⟩⟩
      all_goals cases hr
  intro how p s hi h N hN
  cases hl : s.live p with
  | false =>
    simp only [getByH, hl]
    exact ⟨h, .refl s, fun r hr => by cases hr⟩
  | true =>
    have href := hby .ref p s hi h hl N hN
    cases how with
    | ref =>
      simp only [getBy, getByH, hl, if_true] at href ⊢
      exact ⟨href.1, href.2, href.3⟩
    | bin =>
      have := hby .bin p s hi h hl N hN
      simp only [getBy, getByH, hl, if_true] at this ⊢
      exact ⟨this.1, this.2, this.3⟩
    | cloned =>
      have hi' : Inv Y (getBy Y bld .ref p s).1 := by
        cases ha : s.c.artifacts[p.id]? with
        | some v => rw [getBy_hit hi bld .ref hl ha]; exact hi
        | none =>
          rw [getBy_miss hi hb .ref hl ha]
          exact (hb.ran p s hi hl ha).inv hi
      simp only [getBy, getByH, hl, if_true, getClonedH] at href hi' ⊢
      generalize getRef Y bld p s = x at href hi'
      obtain ⟨s1, r⟩ := x
      obtain ⟨h1, h2, h3⟩ := href
      rcases r with (e | v) | _ | _ | _
      · refine ⟨h1, h2, ?_⟩
        rintro r ⟨⟩
        exact ⟨(h3 _ rfl).1, Or.inl ⟨e, rfl⟩⟩
      · obtain ⟨hk, ⟨e, he⟩ | ⟨x, he, hx⟩⟩ := h3 _ rfl
        · cases he
        cases he
        have := CohRes.hook D (.clone x) (P := Answers Y .cloned p)
          (next := fun s => (s, (.val (.ok (Y.clone x)) : Res (Except σ.E σ.V)))) hi' h1 h2 fun w k1 k2 => by
            refine ⟨k1, k2, ?_⟩
            rintro r ⟨⟩
            exact ⟨hk, Or.inr ⟨x, rfl, hx⟩⟩
        exact ⟨this.1, this.2, this.3⟩
      all_goals exact ⟨h1, h2, fun r hr => by cases hr⟩

theorem getAH_coh {rk : σ.B → Nat} (hrk : Ranked Y rk) (D : Hooks σ) (n : Nat) : GetCoh Y rk (getAH Y D n) := by
  induction n with
  | zero =>
    refine getByH_coh D (getAH_ok Y D 0).2 ?_
    intro p s hi h hl ha N hN
    exact ⟨h, .refl s, fun r hr => by cases hr⟩
  | succ n ih => exact getByH_coh D (getAH_ok Y D (n + 1)).2 (buildH_coh hrk D (getAH_ok Y D n).1 ih)

theorem buildNH_deps {rk : σ.B → Nat} (hrk : Ranked Y rk) (D : Hooks σ) (n : Nat) {p : Promise σ} (hi : Inv Y s)
    (h : Coherent Y s) (hl : s.live p = true) (ha : s.c.artifacts[p.id]? = none) {u : Id}
    (hu : UsesNow (buildNH Y D n p s).1 u p.id) : UsesNow s u p.id := by
  cases n with
  | zero => exact hu
  | succ n => exact buildH_deps hrk D (getAH_ok Y D n).1 (getAH_coh hrk D n) hi h hl ha hu

theorem buildNH_coh {rk : σ.B → Nat} (hrk : Ranked Y rk) (D : Hooks σ) (n : Nat) : BuildCoh Y rk (buildNH Y D n) := by
  cases n with
  | zero => intro p s hi h hl ha N hN; exact ⟨h, .refl s, fun r hr => by cases hr⟩
  | succ n => exact buildH_coh hrk D (getAH_ok Y D n).1 (getAH_coh hrk D n)

/-! ## Removing -/

theorem Written.more {s' : St σ} {a : Id} {v : σ.V} (h : Written s a v) {new : List (Event σ)}
    (hl : s'.c.log = new ++ s.c.log) (hn : ∀ e ∈ new, ¬ e.remakes a) : Written s' a v := by
  obtain ⟨n1, o, e1, f1⟩ := h
  refine ⟨new ++ n1, o, by rw [hl, e1, List.append_assoc], fun e he => ?_⟩
  rcases List.mem_append.1 he with he | he
  · exact hn e he
  · exact f1 e he

/-- What is left after the builders in `P` were dropped, provided dropping is closed under use. -/
theorem Coherent.dropped (h : Coherent Y s) {s' : St σ} {P : Id → Prop}
    (hart : ∀ a : Id, ¬ P a → s'.c.artifacts[a]? = s.c.artifacts[a]?)
    (hnone : ∀ a : Id, P a → s'.c.artifacts[a]? = none)
    (hP : ∀ u d, Dep s.c u d → P d → P u)
    (hk : ∀ a : Id, ¬ P a → s'.c.known[a]? = s.c.known[a]?)
    (hd : ∀ a : Id, ¬ P a → s'.c.dynStates[a]? = s.c.dynStates[a]?)
    (hdep : ∀ u d, Dep s.c u d → ¬ P u → Dep s'.c u d)
    (hlog : ∃ new, s'.c.log = new ++ s.c.log ∧ ∀ a, ∀ e ∈ new, ¬ Event.remakes a e) : Coherent Y s' := by
  intro p v hkp hv
  have hnp : ¬ P p.id := by
    intro hp
    have := hnone _ hp
    unfold Cached at hv
    rw [this] at hv; cases hv
  obtain ⟨d, d', v0, h1, h2, h3⟩ := h p v ((hk _ hnp).symm.trans hkp) ((hart _ hnp).symm.trans hv)
  obtain ⟨new, hl, hn⟩ := hlog
  refine ⟨d, d', v0, h1.transport fun q hu hq => ?_, (hd _ hnp).trans h2, h3.imp_right fun h => h.more hl (hn _)⟩
  rw [usesNow_iff] at hu
  have hnq : ¬ P q.id := fun hq => hnp (hP _ _ hu hq)
  exact ⟨(usesNow_iff ..).2 (hdep _ _ hu hnp), (hk _ hnq).trans hq, fun x hx => (hart _ hnq).trans hx⟩

theorem Coherent.same (h : Coherent Y s) {s' : St σ} (hc : s'.c = s.c) : Coherent Y s' :=
  h.dropped (P := fun _ => False) (fun _ _ => by rw [hc]) (fun _ h => h.elim) (fun _ _ _ h => h)
    (fun _ _ => by rw [hc]) (fun _ _ => by rw [hc]) (fun _ _ h _ => by rw [hc]; exact h)
    ⟨[], by rw [hc]; rfl, fun _ _ h => by cases h⟩

theorem Coherent.empty {s' : St σ} (h : s'.c.artifacts = ∅) : Coherent Y s' := by
  intro p v _ hv
  unfold Cached at hv
  rw [h] at hv
  simp at hv

theorem Coherent.invalidated (h : Coherent Y s) {a : Id} {c' : Cache σ} {p : Promise σ}
    (hd : Dropped (Hit (Dep s.c) a) s.c c') : Coherent Y { s with c := c'.emit (.invalidate p) } := by
  refine h.dropped (P := Hit (Dep s.c) a) hd.art_keep hd.art_none (fun u d h1 h2 => Relation.ReflTransGen.head h1 h2) ?_ ?_ ?_ ?_
  · intro x _; simp only [Cache.emit, hd.known]
  · intro x _; simp only [Cache.emit, hd.dynStates]
  · intro u d h1 h2; exact (hd.dep u d).2 ⟨h1, h2⟩
  · exact ⟨[.invalidate p], by simp only [Cache.emit, hd.log]; rfl, fun a e he => by
      cases List.mem_singleton.1 he; exact id⟩

/-- Handing out the dynamic state of `p`, which has no artifact and is used by nobody, for writing. -/
theorem Coherent.setDyn (s1 : Coherent Y s) (hi1 : Inv Y s) {p : Promise σ} {f : σ.S → σ.S}
    (hl1 : s.live p = true) (hnone : s.c.artifacts[p.id]? = none) (hnd : ∀ u, ¬ Dep s.c u p.id) :
    Coherent Y (show St σ × Res σ.S from match ensureDyn Y p s with
      | (s, .val d) =>
        if Y.stTy (f d) = Y.sty p.b then
          (s.onCache fun c =>
            { c with dynStates := c.dynStates.insert p.id (f d) }.emit (.setDyn p (f d)), .val d)
        else (s, .stuck)
      | r => r).1 := by
  obtain ⟨hg, ha, hdepE⟩ := ensureDyn_up (Y := Y) (rk := fun _ => 0) hi1 hl1 (N := 1) (by simp)
  have s2 := s1.up hi1 hg ha
  generalize ensureDyn Y p s = x at hg ha s2 hdepE
  obtain ⟨sx, r⟩ := x
  simp only at ha hdepE s2
  cases r with
  | val d =>
    simp only
    split
    · refine s2.dropped (P := (· = p.id)) ?_ ?_ ?_ ?_ ?_ ?_ ?_
      · intro x _; rfl
      · rintro x rfl
        show sx.c.artifacts[p.id]? = none
        rw [ha, hnone]
      · rintro u d' h1 rfl
        exact absurd ((usesNow_iff ..).1 (hdepE u p.id ((usesNow_iff ..).2 h1))) (hnd u)
      · intro x _; rfl
      · intro x hx
        simp only [St.onCache, Cache.emit]
        grind
      · intro u d' h1 _; exact h1
      · exact ⟨[.setDyn p (f d)], rfl, fun a e he => by cases List.mem_singleton.1 he; exact id⟩
    · exact s2
  | _ => exact s2

/-- The artifact of `p`, which nobody uses, is overwritten. -/
theorem Coherent.written (h : Coherent Y s) {p : Promise σ} {v v' : σ.V} (hv : Cached s p.id v)
    (hno : ∀ u, ¬ Dep s.c u p.id) :
    Coherent Y { s with c := { s.c with artifacts := s.c.artifacts.insert p.id v' }.emit (.write p.id v') } := by
  intro q x hk hx
  have hart : ∀ a : Id, a ≠ p.id → (s.c.artifacts.insert p.id v')[a]? = s.c.artifacts[a]? := by
    intro a ha; grind
  have key : ∀ y, Cached s q.id y → MadeNow Y s q y := fun y hy => h q y hk hy
  by_cases hqp : q.id = p.id
  · obtain ⟨d, d', v0, h1, h2, _⟩ := key v (hqp ▸ hv)
    refine ⟨d, d', v0, h1.transport fun y hu hy => ⟨hu, hy, fun z hz => (hart _ ?_).trans hz⟩, h2, Or.inr ⟨[], s.c.log, ?_⟩⟩
    · intro e; rw [usesNow_iff, e] at hu; exact hno _ hu
    · refine ⟨?_, fun e he => by cases he⟩
      have : x = v' := by
        simp only [Cached, Cache.emit, hqp] at hx
        grind
      rw [this, hqp]
      rfl
  · obtain ⟨d, d', v0, h1, h2, h3⟩ := key x ((hart _ hqp).symm.trans hx)
    refine ⟨d, d', v0, h1.transport fun y hu hy => ⟨hu, hy, fun z hz => (hart _ ?_).trans hz⟩, h2, h3.imp_right fun h =>
      h.more (new := [.write p.id v']) rfl fun e he => ?_⟩
    · intro e; rw [usesNow_iff, e] at hu; exact hno _ hu
    · cases List.mem_singleton.1 he
      exact fun e => hqp e.symm

theorem writeArt_coh (h : Coherent Y s) {p : Promise σ} {f : σ.V → σ.V} {v : σ.V} (hv : Cached s p.id v)
    (hno : ∀ u, ¬ Dep s.c u p.id) {c' : Cache σ} (hw : writeArt Y p f v s.c = some c') : Coherent Y { s with c := c' } := by
  unfold writeArt at hw
  split at hw
  · cases hw; exact h.written hv hno
  · cases hw

/-- `invalidate_dependents`. -/
theorem Coherent.mutDeps (h : Coherent Y s) (hi : Inv Y s) {ord : HashOrder} {a : Id} {c' : Cache σ}
    (he : invalidateDependents Y ord a s.c = (c', .done)) : Coherent Y { s with c := c' } ∧ Inv Y { s with c := c' } ∧
      ∀ u, ¬ Dep c' u a := by
  rcases hi.invalidateDependents ord a with ⟨c1, e1, _⟩ | ⟨c1, e1, _, hinv, hno, hk, hd, hart, hdep, hlog, _⟩
  · rw [e1] at he; cases he
  · rw [e1] at he
    cases he
    refine ⟨?_, hinv, hno⟩
    refine h.dropped (P := StrictHit (Dep s.c) a) ?_ ?_ ?_ ?_ ?_ ?_ ?_
    · intro x hx
      apply Option.ext
      intro v
      rw [hart x v]
      exact ⟨fun h => h.1, fun h => ⟨h, hx⟩⟩
    · intro x hx
      cases hv : c'.artifacts[x]? with
      | none => rfl
      | some v => exact absurd hx ((hart x v).1 hv).2
    · intro u d h1 h2; exact Relation.TransGen.head h1 h2
    · intro x _; rw [hk]
    · intro x _; rw [hd]
    · intro u d h1 h2; exact (hdep u d).2 ⟨h1, h2⟩
    · exact ⟨[.mutDeps a], hlog, fun a e he => by cases List.mem_singleton.1 he; exact id⟩

theorem lookupMut_coh (h : Coherent Y s) (hi : Inv Y s) {n : Nat} {ord : HashOrder} {p : Promise σ} {f : σ.V → σ.V}
    (hl : s.live p = true) (hg : (exec Y n ord s (.lookupMut p f)).2 ≠ .panic .noCounterpart) :
    Coherent Y (exec Y n ord s (.lookupMut p f)).1 := by
  rcases lookupMut_spec hi ord hl with ⟨c', he, _⟩ | ⟨c', he, hdone⟩
  · simp only [exec, he] at hg; exact absurd rfl hg
  · obtain ⟨h1, h2, h3⟩ := h.mutDeps hi hdone
    simp only [exec, he]
    cases hv : c'.artifacts[p.id]? with
    | none => exact h1
    | some v =>
      simp only
      split
      · next c2 hw => exact writeArt_coh (s := { s with c := c' }) h1 hv h3 hw
      · exact h1

theorem getMutH_coh {rk : σ.B → Nat} (hrk : Ranked Y rk) (h : Coherent Y s) (hi : Inv Y s) {D : Hooks σ} {n : Nat}
    {ord : HashOrder} {p : Promise σ} {f : σ.V → σ.V}
    (hl : s.live p = true) (hg : (execH Y D n ord s (.getMut p f)).2 ≠ .panic .noCounterpart) :
    Coherent Y (execH Y D n ord s (.getMut p f)).1 := by
  rcases getMut_spec_of hi (getAH_ok Y D n).2 ord hl with ⟨c', he, _⟩ | ⟨c1, h1, ⟨c2, v, hv1, h2, hv2, hinv, he⟩ | ⟨hv, he⟩⟩
  · simp only [execH, he] at hg; exact absurd rfl hg
  · obtain ⟨k1, i1, _⟩ := h.mutDeps hi h1
    obtain ⟨k2, i2, n2⟩ := k1.mutDeps i1 h2
    simp only [execH, he]
    split
    · next c' hw => exact writeArt_coh (s := { s with c := c2 }) k2 hv2 n2 hw
    · exact k2
  · obtain ⟨k1, i1, n1⟩ := h.mutDeps hi h1
    have hb := buildNH_coh hrk D n p { s with c := c1 } i1 k1 hl hv (rk p.b + 1) (Nat.lt_succ_self _)
    have hno : ∀ u, ¬ Dep (buildNH Y D n p { s with c := c1 }).1.c u p.id := by
      intro u hu
      exact n1 u ((usesNow_iff ..).1 (buildNH_deps hrk D n i1 k1 hl hv ((usesNow_iff ..).2 hu)))
    simp only [execH, he]
    generalize buildNH Y D n p { s with c := c1 } = x at hb hno
    obtain ⟨s', r⟩ := x
    have hc := hb.coh
    have hval := hb.val
    rcases r with (e | v) | _ | _ | _
    · exact hc
    · obtain ⟨_, ⟨e, he⟩ | ⟨x, he, hx⟩⟩ := hval _ rfl
      · cases he
      cases he
      simp only
      split
      · next c' hw => exact writeArt_coh (s := s') hc hx hno hw
      · exact hc
    all_goals exact hc

theorem exec_coh (h : Coherent Y s) (hi : Inv Y s) (n : Nat) (ord : HashOrder) (op : Op σ)
    (hl : ∀ p, op.promise? = some p → s.live p = true) (hdeep : op.deep = false)
    (hg : (exec Y n ord s op).2 ≠ .panic .noCounterpart) : Coherent Y (exec Y n ord s op).1 := by
  cases op with
  | get how p => cases hdeep
  | getMut p f => cases hdeep
  | dynStateMut p f => cases hdeep
  | lookupMut p f => exact lookupMut_coh h hi (hl p rfl) hg
  | lookup how p => exact h
  | dynState p =>
    obtain ⟨hg, ha, _⟩ := ensureDyn_up (Y := Y) (rk := fun _ => 0) hi (hl p rfl) (N := 1) (by simp)
    exact h.up hi hg ha
  | getDynState p => exact h
  | isKnown p => exact h
  | numKnown => exact h
  | invalidate p =>
    obtain ⟨c', he, hd⟩ := invalidate_spec hi ord p
    simp only [exec, he]
    exact h.invalidated hd
  | purge p =>
    obtain ⟨c', cF, he, hd, rfl⟩ := purge_spec hi ord p
    simp only [exec, he]
    refine h.dropped (P := Hit (Dep s.c) p.id) hd.art_keep hd.art_none (fun u d h1 h2 => Relation.ReflTransGen.head h1 h2) ?_ ?_ ?_ ?_
    · intro x hn
      have : x ≠ p.id := by rintro rfl; exact hn .refl
      grind
    · intro x hn
      have : x ≠ p.id := by rintro rfl; exact hn .refl
      grind
    · intro u d h1 h2; exact (hd.dep u d).2 ⟨h1, h2⟩
    · refine ⟨[.invalidate p, .purged p], rfl, fun a e he => ?_⟩
      rcases List.mem_cons.1 he with rfl | he
      · exact id
      · cases List.mem_singleton.1 he; exact id
  | clearArtifacts => exact .empty rfl
  | clearAll => exact .empty rfl
  | gc =>
    rcases gc_spec hi ord with ⟨e, _⟩ | ⟨_, c', e, hsw, l, _, hlog⟩
    · simp only [exec, e]; exact h
    · simp only [exec, e]
      refine h.dropped (P := Garbage s) hsw.art_keep hsw.art_none ?_ hsw.known_keep hsw.dyn_keep ?_ ?_
      · rintro u d hu ⟨_, _, _, hno⟩
        exact absurd hu (hno u)
      · intro u d h1 h2; exact (hsw.dep u d).2 ⟨h1, h2⟩
      · refine ⟨l.map Event.collect, hlog, fun a e he => ?_⟩
        obtain ⟨x, _, rfl⟩ := List.mem_map.1 he
        exact id
  | alloc p =>
    simp only [exec]
    cases ha : allocB p s with
    | none => exact h
    | some s' => exact h.same (allocB_c ha)
  | free a => exact h.same rfl
  | world f => exact h.same rfl

theorem stepH_coh {rk : σ.B → Nat} (hrk : Ranked Y rk) (h : Coherent Y s) (hi : Inv Y s) (D : Hooks σ) (n : Nat)
    (ord : HashOrder) (op : Op σ) (hg : (stepH Y D n ord s op).2 ≠ .panic .noCounterpart) :
    Coherent Y (stepH Y D n ord s op).1 := by
  rcases stepH_cases (Y := Y) (s := s) D n ord op with ⟨hl, e⟩ | e
  · rw [e] at hg ⊢
    cases hdeep : op.deep with
    | false =>
      obtain ⟨w, h1, h2⟩ := execH_shallow (Y := Y) (s := s) D n ord op hdeep
      rw [h1]
      refine (exec_coh h hi n ord op hl hdeep ?_).same rfl
      rcases h2 with h2 | ⟨_, a, h2⟩
      · rw [← h2]; exact hg
      · rw [h2]; intro h; cases h
    | true =>
      cases op with
      | get how p => exact (getAH_coh hrk D n how p s hi h _ (Nat.lt_succ_self _)).coh
      | getMut p f => exact getMutH_coh hrk h hi (hl p rfl) hg
      | dynStateMut p f =>
        have hl := hl p rfl
        obtain ⟨c', he, hd⟩ := invalidate_spec hi ord p
        have s1 := h.invalidated (p := p) hd
        have i1 := hi.invalidated (p := p) hd
        simp only [execH, dynStateMutH, he]
        simp only [callHook]
        split
        · exact s1.same rfl
        · next w _ =>
          refine Coherent.setDyn (p := p) (f := f) (s1.same (s' := { s with c := c'.emit (.invalidate p), w := w }) rfl)
            (i1.micro (.world w)) hl (hd.art_none _ .refl)
            fun u hu => ((hd.dep u p.id).1 hu).2 (.single ((hd.dep u p.id).1 hu).1)
      | _ => cases hdeep
  · rw [e]; exact h

theorem Reachable.coherent {rk : σ.B → Nat} (hrk : Ranked Y rk) (h : Reachable Y s) : Coherent Y s := by
  induction h with
  | new w => exact .empty rfl
  | @step s n ord op h hg ih =>
    have e := C59_quiet_hooks (Y := Y) (D := fun w _ => (w, false)) (fun _ _ => rfl) n ord s op
    rw [← e] at hg ⊢
    exact stepH_coh hrk ih h.inv _ n ord op fun h => by rw [h] at hg; exact hg rfl
  | @hooked s D n ord op h hg ih => exact stepH_coh hrk ih h.inv D n ord op fun h => by rw [h] at hg; exact hg rfl

/-! ## Uses go down -/

/-- On record are uses of builders of lower rank only. -/
def Downward (rk : σ.B → Nat) (s : St σ) : Prop := ∀ (u a : Id) bu ba, UsesNow s u a → s.c.known[u]? = some bu →
  s.c.known[a]? = some ba → rk ba < rk bu

theorem Downward.up {rk : σ.B → Nat} (h : Downward rk s) (hi : Inv Y s) {N : Nat} {s' : St σ} (hg : Upward rk N s s') :
    Downward rk s' := by
  intro u a bu ba hu h1 h2
  rcases hg.ranks u a hu with hu | ⟨bu', ba', e1, e2, e3⟩
  · rw [usesNow_iff] at hu
    obtain ⟨bu', e1⟩ := (mem_getElem _ _).1 (hi.depU _ _ hu)
    obtain ⟨ba', e2⟩ := (mem_getElem _ _).1 (hi.depD _ _ hu)
    have e1' := hg.known _ _ e1
    have e2' := hg.known _ _ e2
    rw [h1] at e1'; rw [h2] at e2'
    cases e1'; cases e2'
    exact h u a bu ba ((usesNow_iff ..).2 hu) e1 e2
  · rw [h1] at e1; rw [h2] at e2
    cases e1; cases e2
    exact e3

theorem Downward.less {rk : σ.B → Nat} (h : Downward rk s) {s' : St σ} (h1 : ∀ u a, Dep s'.c u a → Dep s.c u a)
    (h2 : ∀ (a : Id) b, s'.c.known[a]? = some b → s.c.known[a]? = some b) : Downward rk s' :=
  fun u a bu ba hu e1 e2 => h u a bu ba ((usesNow_iff ..).2 (h1 u a ((usesNow_iff ..).1 hu))) (h2 _ _ e1) (h2 _ _ e2)

/-- Writing an artifact or a dynamic state changes no uses. -/
theorem Downward.same {rk : σ.B → Nat} (h : Downward rk s) {s' : St σ} (h1 : s'.c.dependents = s.c.dependents)
    (h2 : s'.c.known = s.c.known) : Downward rk s' :=
  h.less (fun u a h => by simpa only [Dep, h1] using h) fun a b h => by rw [← h2]; exact h

theorem writeArt_down {rk : σ.B → Nat} (h : Downward rk s) {p : Promise σ} {f : σ.V → σ.V} {v : σ.V} {c' : Cache σ}
    (hw : writeArt Y p f v s.c = some c') : Downward rk { s with c := c' } := by
  unfold writeArt at hw
  split at hw
  · cases hw; exact h.same rfl rfl
  · cases hw

theorem Downward.mutDeps {rk : σ.B → Nat} (h : Downward rk s) (hi : Inv Y s) {ord : HashOrder} {a : Id} {c' : Cache σ}
    (he : invalidateDependents Y ord a s.c = (c', .done)) : Downward rk { s with c := c' } := by
  rcases hi.invalidateDependents ord a with ⟨c1, e1, _⟩ | ⟨c1, e1, _, _, _, hk, _, _, hdep, _⟩
  · rw [e1] at he; cases he
  · rw [e1] at he
    cases he
    exact h.less (fun u d h => ((hdep u d).1 h).1) fun a b h => by simpa only [hk] using h

theorem exec_down {rk : σ.B → Nat} (h : Downward rk s) (hi : Inv Y s) (n : Nat) (ord : HashOrder) (op : Op σ)
    (hl : ∀ p, op.promise? = some p → s.live p = true) (hdeep : op.deep = false)
    (hg : (exec Y n ord s op).2 ≠ .panic .noCounterpart) : Downward rk (exec Y n ord s op).1 := by
  cases op with
  | get how p => cases hdeep
  | getMut p f => cases hdeep
  | dynStateMut p f => cases hdeep
  | lookupMut p f =>
    rcases lookupMut_spec hi ord (hl p rfl) with ⟨c', he, _⟩ | ⟨c', he, hdone⟩
    · simp only [exec, he] at hg; exact absurd rfl hg
    · have h1 := h.mutDeps hi hdone
      simp only [exec, he]
      cases hv : c'.artifacts[p.id]? with
      | none => exact h1
      | some v =>
        simp only
        split
        · next c2 hw => exact writeArt_down (s := { s with c := c' }) h1 hw
        · exact h1
  | lookup how p => exact h
  | dynState p => exact h.up hi (ensureDyn_up (Y := Y) hi (hl p rfl) (Nat.lt_succ_self _)).1
  | getDynState p => exact h
  | isKnown p => exact h
  | numKnown => exact h
  | invalidate p =>
    obtain ⟨c', he, hd⟩ := invalidate_spec hi ord p
    simp only [exec, he]
    exact h.less (fun u d h => ((hd.dep u d).1 h).1) fun a b h => by simpa only [Cache.emit, hd.known] using h
  | purge p =>
    obtain ⟨c', cF, he, hd, rfl⟩ := purge_spec hi ord p
    simp only [exec, he]
    exact h.less (fun u d h => ((hd.dep u d).1 h).1) fun a b h => by simp only at h; grind
  | clearArtifacts =>
    exact h.less (fun u d h => by simp [exec, St.onCache, clearArtifacts, Dep, setAt, Cache.emit] at h) fun a b h => h
  | clearAll =>
    exact h.less (fun u d h => by simp [exec, St.onCache, clearAll, Dep, setAt, Cache.emit] at h)
      fun a b h => by simp [exec, St.onCache, clearAll, Cache.emit] at h
  | gc =>
    rcases gc_spec hi ord with ⟨e, _⟩ | ⟨_, c', e, hsw, _⟩
    · simp only [exec, e]; exact h
    · simp only [exec, e]
      refine h.less (fun u d h => ((hsw.dep u d).1 h).1) fun a b hb => ?_
      by_cases ha : Garbage s a
      · simp only [hsw.known_none a ha] at hb; cases hb
      · simpa only [hsw.known_keep a ha] using hb
  | alloc p =>
    simp only [exec]
    cases ha : allocB p s with
    | none => exact h
    | some s' => exact h.same (by rw [allocB_c ha]) (by rw [allocB_c ha])
  | free a => exact h
  | world f => exact h

theorem stepH_down {rk : σ.B → Nat} (hrk : Ranked Y rk) (hc : Coherent Y s) (h : Downward rk s) (hi : Inv Y s) (D : Hooks σ)
    (n : Nat) (ord : HashOrder) (op : Op σ) (hg : (stepH Y D n ord s op).2 ≠ .panic .noCounterpart) :
    Downward rk (stepH Y D n ord s op).1 := by
  rcases stepH_cases (Y := Y) (s := s) D n ord op with ⟨hl, e⟩ | e
  · rw [e] at hg ⊢
    cases hdeep : op.deep with
    | false =>
      obtain ⟨w, h1, h2⟩ := execH_shallow (Y := Y) (s := s) D n ord op hdeep
      rw [h1]
      refine (exec_down h hi n ord op hl hdeep ?_).same rfl rfl
      rcases h2 with h2 | ⟨_, a, h2⟩
      · rw [← h2]; exact hg
      · rw [h2]; intro h; cases h
    | true =>
      cases op with
      | get how p => exact h.up hi (getAH_coh hrk D n how p s hi hc _ (Nat.lt_succ_self _)).up
      | getMut p f =>
        have hl := hl p rfl
        rcases getMut_spec_of hi (getAH_ok Y D n).2 ord hl with
          ⟨c', he, _⟩ | ⟨c1, h1, ⟨c2, v, _, h2, _, _, he⟩ | ⟨hv, he⟩⟩
        · simp only [execH, he] at hg; exact absurd rfl hg
        · have k1 := h.mutDeps hi h1
          have k2 := k1.mutDeps (hc.mutDeps hi h1).2.1 h2
          simp only [execH, he]
          split
          · next c' hw => exact writeArt_down (s := { s with c := c2 }) k2 hw
          · exact k2
        · obtain ⟨k1, i1, _⟩ := hc.mutDeps hi h1
          have hb := buildNH_coh hrk D n p { s with c := c1 } i1 k1 hl hv (rk p.b + 1) (Nat.lt_succ_self _)
          have hd := (h.mutDeps hi h1).up i1 hb.up
          simp only [execH, he]
          generalize buildNH Y D n p { s with c := c1 } = x at hd
          obtain ⟨s', r⟩ := x
          rcases r with (e | v) | _ | _ | _
          · exact hd
          · simp only
            split
            · next c' hw => exact writeArt_down (s := s') hd hw
            · exact hd
          all_goals exact hd
      | dynStateMut p f =>
        have hl := hl p rfl
        obtain ⟨c', he, hd⟩ := invalidate_spec hi ord p
        have i1 := hi.invalidated (p := p) hd
        have k1 : Downward rk { s with c := c'.emit (.invalidate p) } :=
          h.less (fun u d h => ((hd.dep u d).1 h).1) fun a b h => by simpa only [Cache.emit, hd.known] using h
        simp only [execH, dynStateMutH, he]
        simp only [callHook]
        split
        · exact k1.same rfl rfl
        · next w _ =>
          have i2 : Inv Y { s with c := c'.emit (.invalidate p), w := w } := i1.micro (.world w)
          have k2 := (k1.same (s' := { s with c := c'.emit (.invalidate p), w := w }) rfl rfl).up i2
            (ensureDyn_up (Y := Y) (p := p) i2 hl (Nat.lt_succ_self _)).1
          generalize ensureDyn Y p { s with c := c'.emit (.invalidate p), w := w } = x at k2
          obtain ⟨sx, r⟩ := x
          cases r with
          | val d =>
            simp only
            split
            · exact k2.same rfl rfl
            · exact k2
          | _ => exact k2
      | _ => cases hdeep
  · rw [e]; exact h

theorem Reachable.downward {rk : σ.B → Nat} (hrk : Ranked Y rk) (h : Reachable Y s) : Downward rk s := by
  induction h with
  | new w => intro u a bu ba hu; obtain ⟨_, h, _⟩ := hu; simp [St.new] at h
  | @step s n ord op h hg ih =>
    have e := C59_quiet_hooks (Y := Y) (D := fun w _ => (w, false)) (fun _ _ => rfl) n ord s op
    rw [← e] at hg ⊢
    exact stepH_down hrk (h.coherent hrk) ih h.inv _ n ord op fun h => by rw [h] at hg; exact hg rfl
  | @hooked s D n ord op h hg ih =>
    exact stepH_down hrk (h.coherent hrk) ih h.inv D n ord op fun h => by rw [h] at hg; exact hg rfl

end Daab
