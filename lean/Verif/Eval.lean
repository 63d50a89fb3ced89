import Verif.Inv

/-! # Analysis of `get` and `build` -/

open Std

namespace Daab

variable {σ : Sig}

theorem Micro.known_mono {Y : Sys σ} {s s' : St σ} (h : Micro Y s s') (a : Id) (b : σ.B)
    (hk : s.c.known[a]? = some b) : s'.c.known[a]? = some b := by
  cases h with
  | known p hl =>
    simp only [St.onCache, makeKnown_getElem]
    grind
  | alloc q ha =>
    unfold allocB at ha
    split at ha <;> cases ha
    exact hk
  | _ => exact hk

theorem Micro.dyn_mono {Y : Sys σ} {s s' : St σ} (h : Micro Y s s') (a : Id)
    (hk : a ∈ s.c.dynStates) : a ∈ s'.c.dynStates := by
  cases h with
  | known p hl => simpa only [St.onCache, makeKnown_dynStates] using hk
  | init => simp only [Cache.emit]; grind
  | setDyn => simp only [Cache.emit]; grind
  | alloc q ha =>
    unfold allocB at ha
    split at ha <;> cases ha
    exact hk
  | _ => exact hk

/-- The event reported by an atomic step, if any, is added in front of the log. -/
theorem Micro.log_mono {Y : Sys σ} {s s' : St σ} (h : Micro Y s s') :
    s.c.log <:+ s'.c.log := by
  cases h with
  | known p hl => simp [St.onCache]
  | world | free => exact List.suffix_refl _
  | alloc q ha =>
    unfold allocB at ha
    split at ha <;> cases ha
    exact List.suffix_refl _
  | _ => exact List.suffix_cons _ _

theorem Micro.pendOr_mono {Y : Sys σ} {s s' : St σ} (h : Micro Y s s') (u : Id)
    (hp : PendOr s u) : PendOr s' u := by
  have hsame : ∀ (e : Event σ), (∀ q v, e = .built q v → q.id ≠ u) →
      Pending u (e :: s.c.log) ∨ u ∈ s.c.artifacts := fun e he => hp.imp (·.cons e he) id
  cases h with
  | known p hl => simpa [PendOr, St.onCache] using hp
  | track p q => exact hsame (.resolve p q) (by simp)
  | init p w d => exact hsame (.initDyn p (some d)) (by simp)
  | initPanic p w => exact hsame (.initDyn p none) (by simp)
  | setDyn p d => exact hsame (.setDyn p d) (by simp)
  | world w => exact hp
  | alloc q ha =>
    unfold allocB at ha
    split at ha <;> cases ha
    exact hp
  | free a => exact hp
  | call p => exact hsame (.call p) (by simp)
  | built p v =>
    by_cases hu : p.id = u
    · subst hu
      exact Or.inr (by simp [St.onCache])
    · rcases hp with hp | hp
      · exact Or.inl (hp.cons (.built p v) (by intro q w h; cases h; exact hu))
      · exact Or.inr (by simp only [St.onCache]; grind)

theorem Micros.pendOr_mono {Y : Sys σ} {s s' : St σ} (h : Micros Y s s') (u : Id)
    (hp : PendOr s u) : PendOr s' u := by
  induction h with
  | refl => exact hp
  | tail _ hm ih => exact hm.pendOr_mono u ih

theorem PendOr.called (s : St σ) (p : Promise σ) : PendOr (s.onCache (·.emit (.call p))) p.id :=
  Or.inl ⟨[], s.c.log, p, rfl, rfl, by simp⟩

theorem Micros.known_mono {Y : Sys σ} {s s' : St σ} (h : Micros Y s s') (a : Id) (b : σ.B)
    (hk : s.c.known[a]? = some b) : s'.c.known[a]? = some b := by
  induction h with
  | refl => exact hk
  | tail _ hm ih => exact hm.known_mono _ _ ih

theorem Micros.dyn_mono {Y : Sys σ} {s s' : St σ} (h : Micros Y s s') (a : Id)
    (hk : a ∈ s.c.dynStates) : a ∈ s'.c.dynStates := by
  induction h with
  | refl => exact hk
  | tail _ hm ih => exact hm.dyn_mono _ ih

theorem Micros.log_mono {Y : Sys σ} {s s' : St σ} (h : Micros Y s s') : s.c.log <:+ s'.c.log := by
  induction h with
  | refl => exact List.suffix_refl _
  | tail _ hm ih => exact ih.trans hm.log_mono

/-- Only builder code panics. -/
def Res.noInternal {α : Type} (r : Res α) : Prop := ∀ k, r = .panic k → k = .user ∨ k = .init

theorem Since.of_suffix {s s1 s2 : St σ} {e : Event σ} (h : Since s s1 e)
    (h2 : s1.c.log <:+ s2.c.log) : Since s s2 e := by
  obtain ⟨n, h1, h3⟩ := h
  obtain ⟨m, hm⟩ := h2
  exact ⟨m ++ n, by rw [← hm, h1, List.append_assoc], List.mem_append_right _ h3⟩

theorem Since.of_prefix {s s1 s2 : St σ} {e : Event σ} (h : Since s1 s2 e)
    (h2 : s.c.log <:+ s1.c.log) : Since s s2 e := by
  obtain ⟨n, h1, h3⟩ := h
  obtain ⟨m, hm⟩ := h2
  exact ⟨n ++ m, by rw [h1, ← hm, List.append_assoc], List.mem_append_left _ h3⟩

/-- What a run of `get`, `build` or builder code does to the cache.  `ex`: builders that may change
their dynamic state without being called (those already running). -/
structure Ran (Y : Sys σ) (ex : Id → Prop) (s : St σ) {α : Type} (x : St σ × Res α) : Prop where
  micros : Micros Y s x.1
  keep : ∀ (a : Id) v, s.c.artifacts[a]? = some v → x.1.c.artifacts[a]? = some v
  noInt : x.2.noInternal
  artLocal : ∀ a : Id, x.1.c.artifacts[a]? = s.c.artifacts[a]? ∨
    ∃ p : Promise σ, p.id = a ∧ Since s x.1 (.call p)
  dynLocal : ∀ a : Id, ¬ ex a → (∀ d, s.c.dynStates[a]? = some d → x.1.c.dynStates[a]? = some d) ∨
    ∃ p : Promise σ, p.id = a ∧ Since s x.1 (.call p)

theorem Ran.inv {Y : Sys σ} {ex : Id → Prop} {s : St σ} {α : Type} {x : St σ × Res α}
    {I : St σ → Prop} [Stable Y I] (h : Ran Y ex s x) (hi : I s) : I x.1 := Stable.micros hi h.micros

theorem noInternal_val {α : Type} (a : α) : (Res.val a).noInternal := by intro k h; cases h
theorem noInternal_stuck {α : Type} : (Res.stuck : Res α).noInternal := by intro k h; cases h
theorem noInternal_overflow {α : Type} : (Res.overflow : Res α).noInternal := by intro k h; cases h
theorem noInternal_cast {α β : Type} {k : Panic} (h : (Res.panic k : Res α).noInternal) :
    (Res.panic k : Res β).noInternal := by
  intro k' h'; cases h'; exact h k rfl

theorem Ran.refl {Y : Sys σ} {ex : Id → Prop} {s : St σ} {α : Type} {r : Res α}
    (h : r.noInternal) : Ran Y ex s (s, r) :=
  ⟨.refl, fun _ _ h => h, h, fun _ => Or.inl rfl, fun _ _ => Or.inl fun _ h => h⟩

theorem Ran.trans {Y : Sys σ} {ex : Id → Prop} {s : St σ} {α β : Type} {x : St σ × Res α}
    {y : St σ × Res β} (h1 : Ran Y ex s x) (h2 : Ran Y ex x.1 y) : Ran Y ex s y := by
  refine ⟨h1.micros.trans h2.micros, fun a v h => h2.keep a v (h1.keep a v h), h2.noInt, ?_, ?_⟩
  · intro a
    rcases h1.artLocal a with e1 | ⟨p, hp, hs⟩
    · rcases h2.artLocal a with e2 | ⟨p, hp, hs⟩
      · exact Or.inl (e2.trans e1)
      · exact Or.inr ⟨p, hp, hs.of_prefix h1.micros.log_mono⟩
    · exact Or.inr ⟨p, hp, hs.of_suffix h2.micros.log_mono⟩
  · intro a ha
    rcases h1.dynLocal a ha with e1 | ⟨p, hp, hs⟩
    · rcases h2.dynLocal a ha with e2 | ⟨p, hp, hs⟩
      · exact Or.inl fun d hd => e2 d (e1 d hd)
      · exact Or.inr ⟨p, hp, hs.of_prefix h1.micros.log_mono⟩
    · exact Or.inr ⟨p, hp, hs.of_suffix h2.micros.log_mono⟩

/-- One atomic step that keeps artifacts and the dynamic states outside `ex`. -/
theorem Ran.one {Y : Sys σ} {ex : Id → Prop} {s s1 : St σ} {α : Type} {r : Res α}
    (h1 : Micro Y s s1) (hk : s1.c.artifacts = s.c.artifacts)
    (hd : ∀ a : Id, ¬ ex a → ∀ d, s.c.dynStates[a]? = some d → s1.c.dynStates[a]? = some d)
    (hr : r.noInternal) : Ran Y ex s (s1, r) :=
  ⟨.single h1, fun a v h => hk ▸ h, hr, fun a => Or.inl (by rw [hk]),
    fun a ha => Or.inl fun d => hd a ha d⟩

/-- Prepend one atomic step that keeps artifacts and dynamic states. -/
theorem Ran.step' {Y : Sys σ} {ex : Id → Prop} {s s1 : St σ} {α : Type} {x : St σ × Res α}
    (h1 : Micro Y s s1) (hk : s1.c.artifacts = s.c.artifacts)
    (hd : ∀ a : Id, ¬ ex a → ∀ d, s.c.dynStates[a]? = some d → s1.c.dynStates[a]? = some d)
    (h2 : Ran Y ex s1 x) : Ran Y ex s x :=
  (Ran.one (r := (.val () : Res Unit)) h1 hk hd (noInternal_val _)).trans h2

theorem Ran.step {Y : Sys σ} {ex : Id → Prop} {s s1 : St σ} {α : Type} {x : St σ × Res α}
    (h1 : Micro Y s s1) (hk : s1.c.artifacts = s.c.artifacts) (hd : s1.c.dynStates = s.c.dynStates)
    (h2 : Ran Y ex s1 x) : Ran Y ex s x :=
  Ran.step' h1 hk (fun a _ d h => by rw [hd]; exact h) h2

theorem Ran.change {Y : Sys σ} {ex : Id → Prop} {s s1 : St σ} {α β : Type} {r : Res α} {r' : Res β}
    (h : Ran Y ex s (s1, r)) (hr : r'.noInternal) : Ran Y ex s (s1, r') :=
  ⟨h.micros, h.keep, hr, h.artLocal, h.dynLocal⟩

theorem Ran.weaken {Y : Sys σ} {ex ex' : Id → Prop} {s : St σ} {α : Type} {x : St σ × Res α}
    (h : Ran Y ex s x) (he : ∀ a, ex a → ex' a) : Ran Y ex' s x :=
  ⟨h.micros, h.keep, h.noInt, h.artLocal, fun a ha => h.dynLocal a fun h => ha (he a h)⟩

/-- Nothing is exempt. -/
abbrev noEx : Id → Prop := fun _ => False

/-! ## Dynamic states -/

theorem ensureDyn_ran {Y : Sys σ} {I : St σ → Prop} [Stable Y I] {s : St σ} (hi : I s) {p : Promise σ} (hl : s.live p = true) :
    Ran Y noEx s (ensureDyn Y p s) ∧ (ensureDyn Y p s).1.c.known[p.id]? = some p.b ∧
    (ensureDyn Y p s).1.c.artifacts = s.c.artifacts ∧
    ∀ d, (ensureDyn Y p s).2 = .val d → (ensureDyn Y p s).1.c.dynStates[p.id]? = some d := by
  have hm : Micro Y s (s.onCache (makeKnown p)) := .known p hl
  have hi1 := Stable.micro hi hm
  have hk : (s.onCache (makeKnown p)).c.known[p.id]? = some p.b := (Stable.healthy hi).live_known hl
  have ha : (s.onCache (makeKnown p)).c.artifacts = s.c.artifacts := makeKnown_artifacts _ _
  have hy : (s.onCache (makeKnown p)).c.dynStates = s.c.dynStates := makeKnown_dynStates _ _
  generalize hs1 : s.onCache (makeKnown p) = s1 at *
  unfold ensureDyn
  rw [hs1]
  simp only
  cases hd : s1.c.dynStates[p.id]? with
  | some d =>
    have ht := (Stable.healthy hi1).dynTy _ _ _ hd hk
    simp only [ht, if_true]
    refine ⟨(Ran.refl (noInternal_val _)).step hm ha hy, hk, ha, ?_⟩
    intro d' h; cases h; exact hd
  | none =>
    simp only
    cases hin : Y.init p.b s1.w with
    | mk w o =>
      cases o with
      | none =>
        refine ⟨?_, hk, ha, by intro d h; cases h⟩
        refine Ran.step hm ha hy (Ran.step (.initPanic p w hk hd hin) rfl rfl (Ran.refl ?_))
        intro k h; cases h; exact Or.inr rfl
      | some d =>
        simp only
        split
        · next ht =>
          refine ⟨?_, hk, ha, ?_⟩
          · refine Ran.step hm ha hy (Ran.one (.init p w d hk hd ht hin) rfl ?_ (noInternal_val _))
            intro a _ d' h
            simp only [Cache.emit]
            grind
          · intro d' h; cases h; simp [Cache.emit]
        · refine ⟨?_, hk, ha, by intro d h; cases h⟩
          exact Ran.step hm ha hy (Ran.refl noInternal_stuck)

/-! ## Lookups under the invariant -/

theorem lookup_eq {Y : Sys σ} {I : St σ → Prop} [Stable Y I] {s : St σ} (hi : I s) {p : Promise σ} (hl : s.live p = true) :
    lookup Y p s.c = .val (s.c.artifacts[p.id]?) := by
  unfold lookup
  cases ha : s.c.artifacts[p.id]? with
  | none => rfl
  | some v =>
    have hk := (Stable.healthy hi).dynKnown _ ((Stable.healthy hi).artDyn p.id (by grind))
    obtain ⟨b, hb⟩ := (mem_getElem _ _).1 hk
    have hbb := (Stable.healthy hi).heapKnown _ _ _ hb (live_iff.1 hl)
    subst hbb
    have ht := (Stable.healthy hi).artTy _ _ _ ha hb
    simp [isKnown, hk, ht]

theorem lookupRef_eq {Y : Sys σ} {I : St σ → Prop} [Stable Y I] {s : St σ} (hi : I s) {p : Promise σ} (hl : s.live p = true) :
    lookupRef Y p s.c = .val (s.c.artifacts[p.id]?) :=
  lookup_eq hi hl

theorem lookupBy_eq {Y : Sys σ} {I : St σ → Prop} [Stable Y I] {s : St σ} (hi : I s) (how : Access) {p : Promise σ}
    (hl : s.live p = true) :
    lookupBy Y how p s.c = .val ((s.c.artifacts[p.id]?).map (seen Y how)) := by
  cases how
  · simp only [lookupBy, lookup_eq hi hl]; cases s.c.artifacts[p.id]? <;> rfl
  · simp only [lookupBy, lookupRef_eq hi hl]; cases s.c.artifacts[p.id]? <;> rfl
  · simp only [lookupBy, lookupCloned, lookupRef_eq hi hl]; rfl

/-! ## Getters -/

/-- Result of a build function that is only used when nothing is cached. -/
structure BuildOkI (I : St σ → Prop) (Y : Sys σ) (bld : BuildFn σ) : Prop where
  ran : ∀ (p : Promise σ) (s : St σ), I s → s.live p = true → s.c.artifacts[p.id]? = none →
    Ran Y noEx s (bld p s)
  ok : ∀ (p : Promise σ) (s : St σ), I s → s.live p = true → s.c.artifacts[p.id]? = none →
    ∀ v, (bld p s).2 = .val (.ok v) →
      (bld p s).1.c.artifacts[p.id]? = some v ∧ Y.artTy v = Y.vty p.b

/-- The same for states that satisfy the global invariant. -/
abbrev BuildOk (Y : Sys σ) (bld : BuildFn σ) : Prop := BuildOkI (Inv Y) Y bld

/-- What `get*` do when something is cached and when nothing is cached. -/
theorem getBy_hit {Y : Sys σ} {I : St σ → Prop} [Stable Y I] {s : St σ} (hi : I s) (bld : BuildFn σ) (how : Access)
    {p : Promise σ} (hl : s.live p = true) {v : σ.V} (ha : s.c.artifacts[p.id]? = some v) :
    getBy Y bld how p s = (s, .val (.ok (seen Y how v))) := by
  have h1 := lookup_eq hi hl
  have h2 := lookupRef_eq hi hl
  rw [ha] at h1 h2
  cases how <;> simp [getBy, hl, getBin, getRef, getCloned, h1, h2, seen]

/-- Clone the artifact if asked to. -/
def seenRes (Y : Sys σ) (how : Access) : Res (Except σ.E σ.V) → Res (Except σ.E σ.V)
  | .val (.ok v) => .val (.ok (seen Y how v))
  | r => r

theorem getBy_miss {Y : Sys σ} {I : St σ → Prop} [Stable Y I] {s : St σ} (hi : I s) {bld : BuildFn σ} (hb : BuildOkI I Y bld)
    (how : Access) {p : Promise σ} (hl : s.live p = true) (ha : s.c.artifacts[p.id]? = none) :
    getBy Y bld how p s = ((bld p s).1, seenRes Y how (bld p s).2) := by
  have h1 := lookup_eq hi hl
  have h2 := lookupRef_eq hi hl
  rw [ha] at h1 h2
  have hf : fresh Y p (bld p s) = bld p s := by
    have := hb.ok p s hi hl ha
    generalize bld p s = x at this ⊢
    obtain ⟨s', r⟩ := x
    cases r with
    | val e =>
      cases e with
      | error e => rfl
      | ok v => simp [fresh, (this v rfl).2]
    | _ => rfl
  have hs : ∀ r, seenRes Y .bin r = r := by
    intro r; rcases r with (_ | _) | _ | _ | _ <;> rfl
  have hs' : ∀ r, seenRes Y .ref r = r := by
    intro r; rcases r with (_ | _) | _ | _ | _ <;> rfl
  cases how
  · simp [getBy, hl, getBin, h1, hf, hs]
  · simp [getBy, hl, getRef, h2, hf, hs']
  · simp only [getBy, hl, getCloned, getRef, h2, hf, if_true]
    generalize bld p s = x
    obtain ⟨s', r⟩ := x
    rcases r with (_ | _) | _ | _ | _ <;> rfl

/-- Specification of a getter. -/
structure GetOkI (I : St σ → Prop) (Y : Sys σ) (g : Getter σ) : Prop where
  ran : ∀ (how : Access) (p : Promise σ) (s : St σ), I s → Ran Y noEx s (g how p s)
  ok : ∀ (how : Access) (p : Promise σ) (s : St σ), I s → ∀ w, (g how p s).2 = .val (.ok w) →
    ∃ v, (g how p s).1.c.artifacts[p.id]? = some v ∧ w = seen Y how v ∧ Y.artTy v = Y.vty p.b
  dead : ∀ (how : Access) (p : Promise σ) (s : St σ), s.live p = false → g how p s = (s, .stuck)
  hit : ∀ (how : Access) (p : Promise σ) (s : St σ), I s → s.live p = true →
    ∀ v, s.c.artifacts[p.id]? = some v → g how p s = (s, .val (.ok (seen Y how v)))

/-- The same for states that satisfy the global invariant. -/
abbrev GetOk (Y : Sys σ) (g : Getter σ) : Prop := GetOkI (Inv Y) Y g

theorem getBy_ok {Y : Sys σ} {I : St σ → Prop} [Stable Y I] {bld : BuildFn σ} (hb : BuildOkI I Y bld) : GetOkI I Y (getBy Y bld) := by
  have dead : ∀ (how : Access) (p : Promise σ) (s : St σ), s.live p = false →
      getBy Y bld how p s = (s, .stuck) := by
    intro how p s h; simp [getBy, h]
  refine ⟨?_, ?_, dead, ?_⟩
  · intro how p s hi
    cases hl : s.live p with
    | false => rw [dead how p s hl]; exact Ran.refl noInternal_stuck
    | true =>
      cases ha : s.c.artifacts[p.id]? with
      | some v => rw [getBy_hit hi bld how hl ha]; exact Ran.refl (noInternal_val _)
      | none =>
        rw [getBy_miss hi hb how hl ha]
        have h := hb.ran p s hi hl ha
        refine ⟨h.micros, h.keep, ?_, h.artLocal, h.dynLocal⟩
        have hn := h.noInt
        generalize (bld p s).2 = r at hn ⊢
        rcases r with (_ | _) | _ | _ | _ <;> first | exact hn | exact noInternal_val _
  · intro how p s hi w hw
    cases hl : s.live p with
    | false => rw [dead how p s hl] at hw; cases hw
    | true =>
      cases ha : s.c.artifacts[p.id]? with
      | some v =>
        rw [getBy_hit hi bld how hl ha] at hw ⊢
        cases hw
        have hk := (Stable.healthy hi).dynKnown _ ((Stable.healthy hi).artDyn p.id (by grind))
        obtain ⟨b, hb'⟩ := (mem_getElem _ _).1 hk
        have hbb := (Stable.healthy hi).heapKnown _ _ _ hb' (live_iff.1 hl)
        subst hbb
        exact ⟨v, ha, rfl, (Stable.healthy hi).artTy _ _ _ ha hb'⟩
      | none =>
        have hok := hb.ok p s hi hl ha
        rw [getBy_miss hi hb how hl ha] at hw ⊢
        simp only at hw ⊢
        generalize (bld p s).2 = r at hw hok
        rcases r with (_ | v) | _ | _ | _ <;> cases hw
        exact ⟨v, (hok v rfl).1, rfl, (hok v rfl).2⟩
  · intro how p s hi hl v ha
    exact getBy_hit hi bld how hl ha

/-! ## Builder code -/

theorem myState_ran {Y : Sys σ} {I : St σ → Prop} [Stable Y I] {s : St σ} (hi : I s) {p : Promise σ}
    (hk : s.c.known[p.id]? = some p.b) (hd : p.id ∈ s.c.dynStates) (f : σ.S → σ.S) :
    Ran Y (· = p.id) s (myState Y p f s) := by
  unfold myState
  obtain ⟨d, hd'⟩ := (mem_getElem _ _).1 hd
  have ht := (Stable.healthy hi).dynTy _ _ _ hd' hk
  have hk' : isKnown p.id s.c = true := by simp only [isKnown]; grind
  simp only [hd', hk', Bool.not_true, Bool.and_false, Bool.false_eq_true, if_false, ht, if_true]
  split
  · next h =>
    refine Ran.one (.setDyn p _ hk hd h) rfl ?_ (noInternal_val _)
    intro a ha d' h
    simp only [Cache.emit]
    grind
  · exact Ran.refl noInternal_stuck

theorem track_eq {Y : Sys σ} {s : St σ} {p : Promise σ} (hk : s.c.known[p.id]? = some p.b)
    (q : Promise σ) : track Y p q s.c = (addEdge p q (makeKnown q s.c), none) := by
  unfold track
  have : isKnown p.id (makeKnown q s.c) = true := by
    have := makeKnown_getElem q s.c p.id
    simp only [isKnown]
    grind
  simp [this]

theorem runProg_ran {Y : Sys σ} {I : St σ → Prop} [Stable Y I] {g : Getter σ} (hg : GetOkI I Y g) {p : Promise σ} (prog : Prog σ)
    {s : St σ} (hi : I s) (hk : s.c.known[p.id]? = some p.b) (hd : p.id ∈ s.c.dynStates)
    (hpo : PendOr s p.id) :
    Ran Y (· = p.id) s (runProg Y g p prog s) ∧
    ∀ v, (runProg Y g p prog s).2 = .val (.ok v) → Y.artTy v = Y.vty p.b := by
  induction prog generalizing s with
  | ret r =>
    cases r with
    | error e => exact ⟨Ran.refl (noInternal_val _), by intro v h; cases h⟩
    | ok v =>
      simp only [runProg]
      split
      · next h => exact ⟨Ran.refl (noInternal_val _), by intro v h'; cases h'; exact h⟩
      · exact ⟨Ran.refl noInternal_stuck, by intro v h; cases h⟩
  | panic =>
    exact ⟨Ran.refl (by intro k h; cases h; exact Or.inl rfl), by intro v h; cases h⟩
  | resolve how q k ih =>
    rw [runProg]
    split
    · next hl =>
      rw [track_eq hk]
      simp only
      have m1 : Micro Y s (s.onCache (makeKnown q)) := .known q hl
      have i1 := Stable.micro hi m1
      have k1 : (s.onCache (makeKnown q)).c.known[p.id]? = some p.b := m1.known_mono _ _ hk
      have q1 : (s.onCache (makeKnown q)).c.known[q.id]? = some q.b := (Stable.healthy hi).live_known hl
      have m2 : Micro Y (s.onCache (makeKnown q)) ((s.onCache (makeKnown q)).onCache (addEdge p q)) :=
        .track p q k1 q1 (m1.pendOr_mono _ hpo)
      have i2 := Stable.micro i1 m2
      have hs2 : ({ s with c := addEdge p q (makeKnown q s.c) } : St σ) =
        (s.onCache (makeKnown q)).onCache (addEdge p q) := rfl
      rw [hs2]
      have hr := (hg.ran how q _ i2).weaken (ex' := (· = p.id)) (fun a h => h.elim)
      have hpre : ∀ {α : Type} {x : St σ × Res α},
          Ran Y (· = p.id) ((s.onCache (makeKnown q)).onCache (addEdge p q)) x →
          Ran Y (· = p.id) s x :=
        fun hx => Ran.step m1 (makeKnown_artifacts _ _) (makeKnown_dynStates _ _)
          (Ran.step m2 rfl rfl hx)
      generalize g how q ((s.onCache (makeKnown q)).onCache (addEdge p q)) = x at hr
      obtain ⟨s', r⟩ := x
      have hms : Micros Y s s' := (hpre hr).micros
      cases r with
      | val r =>
        obtain ⟨h1, h2⟩ := ih r (hr.inv i2) (hms.known_mono _ _ hk) (hms.dyn_mono _ hd)
          (hms.pendOr_mono _ hpo)
        exact ⟨(hpre hr).trans h1, h2⟩
      | panic k => exact ⟨(hpre hr).change (noInternal_cast hr.noInt), by intro v h; cases h⟩
      | stuck => exact ⟨(hpre hr).change noInternal_stuck, by intro v h; cases h⟩
      | overflow => exact ⟨(hpre hr).change noInternal_overflow, by intro v h; cases h⟩
    · exact ⟨Ran.refl noInternal_stuck, by intro v h; cases h⟩
  | myState f k ih =>
    rw [runProg]
    have hr := myState_ran hi hk hd f
    generalize myState Y p f s = x at hr
    obtain ⟨s', r⟩ := x
    cases r with
    | val d =>
      obtain ⟨h1, h2⟩ := ih d (hr.inv hi) (hr.micros.known_mono _ _ hk) (hr.micros.dyn_mono _ hd)
        (hr.micros.pendOr_mono _ hpo)
      exact ⟨hr.trans h1, h2⟩
    | panic k => exact ⟨hr.change (noInternal_cast hr.noInt), by intro v h; cases h⟩
    | stuck => exact ⟨hr.change noInternal_stuck, by intro v h; cases h⟩
    | overflow => exact ⟨hr.change noInternal_overflow, by intro v h; cases h⟩
  | world f k ih =>
    rw [runProg]
    have m : Micro Y s { s with w := f s.w } := .world _
    obtain ⟨h1, h2⟩ := ih s.w (Stable.micro hi m) hk hd hpo
    exact ⟨Ran.step m rfl rfl h1, h2⟩
  | alloc q k ih =>
    rw [runProg]
    cases ha : allocB q s with
    | none => exact ⟨Ran.refl noInternal_stuck, by intro v h; cases h⟩
    | some s' =>
      have m : Micro Y s s' := .alloc q ha
      have hc : s'.c = s.c := by
        unfold allocB at ha
        split at ha <;> cases ha
        rfl
      obtain ⟨h1, h2⟩ := ih (Stable.micro hi m) (hc ▸ hk) (hc ▸ hd) (m.pendOr_mono _ hpo)
      exact ⟨Ran.step m (by rw [hc]) (by rw [hc]) h1, h2⟩
  | free a k ih =>
    rw [runProg]
    have m : Micro Y s (freeB a s) := .free a
    obtain ⟨h1, h2⟩ := ih (Stable.micro hi m) hk hd hpo
    exact ⟨Ran.step m rfl rfl h1, h2⟩

theorem live_micro_known {s : St σ} {p q : Promise σ} (h : s.live p = true) :
    (s.onCache (makeKnown q)).live p = true := h

theorem build_ok {Y : Sys σ} {I : St σ → Prop} [Stable Y I] {g : Getter σ} (hg : GetOkI I Y g) : BuildOkI I Y (build Y g) := by
  have key : ∀ (p : Promise σ) (s : St σ), I s → s.live p = true →
      s.c.artifacts[p.id]? = none → Ran Y noEx s (build Y g p s) ∧
      ∀ v, (build Y g p s).2 = .val (.ok v) →
      (build Y g p s).1.c.artifacts[p.id]? = some v ∧ Y.artTy v = Y.vty p.b := by
    intro p s hi hl ha
    have hca : containsArtifact p.id s.c = false := by
      simp only [containsArtifact]; grind
    unfold build
    simp only [hca, Bool.and_false, Bool.false_eq_true, if_false]
    have m1 : Micro Y s (s.onCache (makeKnown p)) := .known p hl
    have i1 := Stable.micro hi m1
    have a1 : (s.onCache (makeKnown p)).c.artifacts = s.c.artifacts := makeKnown_artifacts _ _
    have he := ensureDyn_ran i1 (p := p) hl
    generalize ensureDyn Y p (s.onCache (makeKnown p)) = x at he
    obtain ⟨s2, r⟩ := x
    obtain ⟨r2, k2, a2, d2⟩ := he
    simp only at k2 a2 d2
    have y1 : (s.onCache (makeKnown p)).c.dynStates = s.c.dynStates := makeKnown_dynStates _ _
    have hpre : Ran Y noEx s (s2, r) := Ran.step m1 a1 y1 r2
    cases r with
    | panic k => exact ⟨hpre.change (noInternal_cast r2.noInt), by intro v h; cases h⟩
    | stuck => exact ⟨hpre.change noInternal_stuck, by intro v h; cases h⟩
    | overflow => exact ⟨hpre.change noInternal_overflow, by intro v h; cases h⟩
    | val d =>
      simp only
      have hdm : p.id ∈ s2.c.dynStates := by have := d2 d rfl; grind
      have ha2 : s2.c.artifacts[p.id]? = none := by rw [a2, a1]; exact ha
      have m3 : Micro Y s2 (s2.onCache (·.emit (.call p))) := .call p k2 hdm ha2
      have i2 := r2.inv i1
      have i3 := Stable.micro i2 m3
      have hr := runProg_ran hg (Y.code p.b) i3 (p := p) k2 hdm (.called s2 p)
      have hpre3 : ∀ {α : Type} {x : St σ × Res α},
          Ran Y (· = p.id) (s2.onCache (·.emit (.call p))) x → Ran Y noEx s x := by
        intro α x hx
        have hy : Ran Y (· = p.id) s2 x := Ran.step m3 rfl rfl hx
        refine hpre.trans ⟨hy.micros, hy.keep, hy.noInt, hy.artLocal, ?_⟩
        intro a _
        by_cases hap : a = p.id
        · refine Or.inr ⟨p, hap.symm, ?_⟩
          have h1 : Since s2 (s2.onCache (·.emit (.call p))) (.call p) :=
            ⟨[.call p], rfl, by simp⟩
          exact h1.of_suffix hx.micros.log_mono
        · exact hy.dynLocal a hap
      generalize runProg Y g p (Y.code p.b) (s2.onCache (·.emit (.call p))) = y at hr
      obtain ⟨s4, r4⟩ := y
      obtain ⟨hr, ht⟩ := hr
      cases r4 with
      | panic k => exact ⟨(hpre3 hr).change (noInternal_cast hr.noInt), by intro v h; cases h⟩
      | stuck => exact ⟨(hpre3 hr).change noInternal_stuck, by intro v h; cases h⟩
      | overflow => exact ⟨(hpre3 hr).change noInternal_overflow, by intro v h; cases h⟩
      | val e =>
        cases e with
        | error e => exact ⟨(hpre3 hr).change (noInternal_val _), by intro v h; cases h⟩
        | ok v =>
          simp only
          have h4 := hpre3 hr
          have hlog : Event.call p ∈ s4.c.log := by
            have := hr.micros.log_mono
            exact this.mem (by simp [St.onCache, Cache.emit])
          have k4 : s4.c.known[p.id]? = some p.b := hr.micros.known_mono _ _ k2
          have d4 : p.id ∈ s4.c.dynStates := hr.micros.dyn_mono _ hdm
          have m5 := Micro.built (Y := Y) p v k4 d4 (ht v rfl) hlog
          have hsc : Since s (s4.onCache fun c =>
              { c.emit (.built p v) with artifacts := c.artifacts.insert p.id v }) (.call p) := by
            have h1 : Since s2 (s2.onCache (·.emit (.call p))) (.call p) :=
              ⟨[.call p], rfl, by simp⟩
            exact ((h1.of_prefix hpre.micros.log_mono).of_suffix hr.micros.log_mono).of_suffix
              m5.log_mono
          refine ⟨⟨h4.micros.tail m5, ?_, noInternal_val _, ?_, ?_⟩, ?_⟩
          · intro a w hw
            have := h4.keep a w hw
            simp only [St.onCache, Cache.emit] at this ⊢
            grind
          · intro a
            by_cases hap : a = p.id
            · exact Or.inr ⟨p, hap.symm, hsc⟩
            · rcases h4.artLocal a with e | ⟨q, hq, hs⟩
              · left
                simp only [St.onCache, Cache.emit] at e ⊢
                grind
              · exact Or.inr ⟨q, hq, hs.of_suffix m5.log_mono⟩
          · intro a ha
            rcases h4.dynLocal a ha with e | ⟨q, hq, hs⟩
            · exact Or.inl e
            · exact Or.inr ⟨q, hq, hs.of_suffix m5.log_mono⟩
          · intro v' h; cases h
            refine ⟨?_, ht v rfl⟩
            simp [St.onCache, Cache.emit]
  exact ⟨fun p s h1 h2 h3 => (key p s h1 h2 h3).1, fun p s h1 h2 h3 => (key p s h1 h2 h3).2⟩

theorem overflow_ok (Y : Sys σ) {I : St σ → Prop} : BuildOkI I Y (fun _ s => (s, .overflow)) :=
  ⟨fun _ _ _ _ _ => Ran.refl noInternal_overflow, fun _ _ _ _ _ v h => by cases h⟩

theorem getA_eq (Y : Sys σ) (n : Nat) : getA Y n = getBy Y (buildN Y n) := by
  cases n <;> rfl

theorem getA_okI (Y : Sys σ) (I : St σ → Prop) [Stable Y I] (n : Nat) : GetOkI I Y (getA Y n) ∧ BuildOkI I Y (buildN Y n) := by
  induction n with
  | zero => exact ⟨getBy_ok (overflow_ok Y), overflow_ok Y⟩
  | succ n ih => exact ⟨getBy_ok (build_ok ih.1), build_ok ih.1⟩

theorem getA_ok (Y : Sys σ) (n : Nat) : GetOk Y (getA Y n) ∧ BuildOk Y (buildN Y n) := getA_okI Y (Inv Y) n

end Daab
