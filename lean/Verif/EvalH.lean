import Verif.Eval

/-! # Analysis of `get` and `build` with hooks (doctor, `Debug`, `Clone`) -/

open Std

namespace Daab

variable {σ : Sig}

theorem noInternal_user {α : Type} : (Res.panic .user : Res α).noInternal := by
  intro k h; cases h; exact Or.inl rfl

/-- A hook is a step of the outside world, and possibly a panic. -/
theorem Ran.hook {Y : Sys σ} {ex : Id → Prop} {s : St σ} {α : Type} {D : Hooks σ} {h : Hook σ}
    {k : St σ → St σ × Res α} (hk : ∀ w, D s.w h = (w, false) → Ran Y ex { s with w := w } (k { s with w := w })) :
    Ran Y ex s (callHook D h s k) := by
  unfold callHook
  split
  · next w _ => exact Ran.step (.world w) rfl rfl (Ran.refl noInternal_user)
  · next w hw => exact Ran.step (.world w) rfl rfl (hk w hw)

/-- What builder code needs to know about the getter. -/
def GetRanI (I : St σ → Prop) (Y : Sys σ) (g : Getter σ) : Prop :=
  ∀ (how : Access) (p : Promise σ) (s : St σ), I s → Ran Y noEx s (g how p s)

/-- The same for states that satisfy the global invariant. -/
abbrev GetRan (Y : Sys σ) (g : Getter σ) : Prop := GetRanI (Inv Y) Y g

theorem callHook_val {α : Type} {D : Hooks σ} {h : Hook σ} {s : St σ} {k : St σ → St σ × Res α} {a : α}
    (hv : (callHook D h s k).2 = .val a) :
    ∃ w, callHook D h s k = k { s with w := w } := by
  unfold callHook at hv ⊢
  split at hv
  · cases hv
  · next w hw => exact ⟨w, rfl⟩

theorem getByH_ran {Y : Sys σ} {I : St σ → Prop} [Stable Y I] (D : Hooks σ) {bld : BuildFn σ} (hb : BuildOkI I Y bld) :
    GetRanI I Y (getByH Y D bld) := by
  intro how p s hi
  have hok := getBy_ok hb
  cases hl : s.live p with
  | false => simp only [getByH, hl]; exact Ran.refl noInternal_stuck
  | true =>
    cases how with
    | bin => have := hok.ran .bin p s hi; simpa only [getByH, getBy, hl] using this
    | ref => have := hok.ran .ref p s hi; simpa only [getByH, getBy, hl] using this
    | cloned =>
      have := hok.ran .ref p s hi
      simp only [getBy, hl, if_true] at this
      simp only [getByH, hl, if_true, getClonedH]
      generalize getRef Y bld p s = x at this ⊢
      obtain ⟨s1, r⟩ := x
      rcases r with (_ | v) | _ | _ | _ <;> try exact this
      exact this.trans (Ran.hook fun w _ => Ran.refl (noInternal_val _))

theorem runProgH_ran {Y : Sys σ} {I : St σ → Prop} [Stable Y I] (D : Hooks σ) {g : Getter σ} (hg : GetRanI I Y g) {p : Promise σ} (prog : Prog σ)
    {s : St σ} (hi : I s) (hk : s.c.known[p.id]? = some p.b) (hd : p.id ∈ s.c.dynStates)
    (hpo : PendOr s p.id) :
    Ran Y (· = p.id) s (runProgH Y D g p prog s) ∧
    ∀ v, (runProgH Y D g p prog s).2 = .val (.ok v) → Y.artTy v = Y.vty p.b := by
  induction prog generalizing s with
  | ret r =>
    cases r with
    | error e => exact ⟨Ran.refl (noInternal_val _), by intro v h; cases h⟩
    | ok v =>
      simp only [runProgH]
      split
      · next h => exact ⟨Ran.refl (noInternal_val _), by intro v h'; cases h'; exact h⟩
      · exact ⟨Ran.refl noInternal_stuck, by intro v h; cases h⟩
  | panic => exact ⟨Ran.refl noInternal_user, by intro v h; cases h⟩
  | resolve how q k ih =>
    rw [runProgH]
    split
    · next hl =>
      rw [track_eq hk]
      simp only
      have m1 : Micro Y s (s.onCache (makeKnown q)) := .known q hl
      have i1 := Stable.micro hi m1
      have k1 : (s.onCache (makeKnown q)).c.known[p.id]? = some p.b := m1.known_mono _ _ hk
      have q1 : (s.onCache (makeKnown q)).c.known[q.id]? = some q.b := (Stable.healthy hi).live_known hl
      have m2 : Micro Y (s.onCache (makeKnown q)) ((s.onCache (makeKnown q)).onCache (addEdge p q)) :=
        .track p q k1 q1 (m1.pendOr_mono _ hpo)
      have i2 := Stable.micro i1 m2
      have hs2 : ({ s with c := addEdge p q (makeKnown q s.c) } : St σ) =
        (s.onCache (makeKnown q)).onCache (addEdge p q) := rfl
      rw [hs2]
      have hpre : ∀ {α : Type} {x : St σ × Res α},
          Ran Y (· = p.id) ((s.onCache (makeKnown q)).onCache (addEdge p q)) x →
          Ran Y (· = p.id) s x :=
        fun hx => Ran.step m1 (makeKnown_artifacts _ _) (makeKnown_dynStates _ _)
          (Ran.step m2 rfl rfl hx)
      have hms2 : Micros Y s ((s.onCache (makeKnown q)).onCache (addEdge p q)) := .tail (.single m1) m2
      generalize (s.onCache (makeKnown q)).onCache (addEdge p q) = s2 at *
      have key : ∀ w, Ran Y (· = p.id) { s2 with w := w } (match g how q { s2 with w := w } with
          | (s, .val r) => runProgH Y D g p (k r) s
          | (s, .panic pk) => (s, .panic pk)
          | (s, .stuck) => (s, .stuck)
          | (s, .overflow) => (s, .overflow)) ∧ ∀ v, (match g how q { s2 with w := w } with
          | (s, .val r) => runProgH Y D g p (k r) s
          | (s, .panic pk) => (s, .panic pk)
          | (s, .stuck) => (s, .stuck)
          | (s, .overflow) => (s, .overflow)).2 = .val (.ok v) → Y.artTy v = Y.vty p.b := by
        intro w
        have mw : Micro Y s2 { s2 with w := w } := .world w
        have hms3 : Micros Y s { s2 with w := w } := hms2.tail mw
        have hr := (hg how q _ (Stable.micro i2 mw)).weaken (ex' := (· = p.id)) (fun a h => h.elim)
        have i3 := Stable.micro i2 mw
        generalize g how q { s2 with w := w } = x at hr ⊢
        obtain ⟨s', r⟩ := x
        have hms : Micros Y s s' := hms3.trans hr.micros
        cases r with
        | val r =>
          obtain ⟨h1, h2⟩ := ih r (hr.inv i3) (hms.known_mono _ _ hk) (hms.dyn_mono _ hd)
            (hms.pendOr_mono _ hpo)
          exact ⟨hr.trans h1, h2⟩
        | panic k => exact ⟨hr.change (noInternal_cast hr.noInt), by intro v h; cases h⟩
        | stuck => exact ⟨hr.change noInternal_stuck, by intro v h; cases h⟩
        | overflow => exact ⟨hr.change noInternal_overflow, by intro v h; cases h⟩
      refine ⟨hpre (Ran.hook fun w _ => (key w).1), ?_⟩
      intro v hv
      obtain ⟨w, e⟩ := callHook_val hv
      rw [e] at hv
      exact (key w).2 v hv
    · exact ⟨Ran.refl noInternal_stuck, by intro v h; cases h⟩
  | myState f k ih =>
    rw [runProgH]
    have hr := myState_ran hi hk hd f
    generalize myState Y p f s = x at hr
    obtain ⟨s', r⟩ := x
    cases r with
    | val d =>
      obtain ⟨h1, h2⟩ := ih d (hr.inv hi) (hr.micros.known_mono _ _ hk) (hr.micros.dyn_mono _ hd)
        (hr.micros.pendOr_mono _ hpo)
      exact ⟨hr.trans h1, h2⟩
    | panic k => exact ⟨hr.change (noInternal_cast hr.noInt), by intro v h; cases h⟩
    | stuck => exact ⟨hr.change noInternal_stuck, by intro v h; cases h⟩
    | overflow => exact ⟨hr.change noInternal_overflow, by intro v h; cases h⟩
  | world f k ih =>
    rw [runProgH]
    have m : Micro Y s { s with w := f s.w } := .world _
    obtain ⟨h1, h2⟩ := ih s.w (Stable.micro hi m) hk hd hpo
    exact ⟨Ran.step m rfl rfl h1, h2⟩
  | alloc q k ih =>
    rw [runProgH]
    cases ha : allocB q s with
    | none => exact ⟨Ran.refl noInternal_stuck, by intro v h; cases h⟩
    | some s' =>
      have m : Micro Y s s' := .alloc q ha
      have hc : s'.c = s.c := by
        unfold allocB at ha
        split at ha <;> cases ha
        rfl
      obtain ⟨h1, h2⟩ := ih (Stable.micro hi m) (hc ▸ hk) (hc ▸ hd) (m.pendOr_mono _ hpo)
      exact ⟨Ran.step m (by rw [hc]) (by rw [hc]) h1, h2⟩
  | free a k ih =>
    rw [runProgH]
    have m : Micro Y s (freeB a s) := .free a
    obtain ⟨h1, h2⟩ := ih (Stable.micro hi m) hk hd hpo
    exact ⟨Ran.step m rfl rfl h1, h2⟩

/-- Storing the artifact: at most the destructor of the replaced one acts, or panics. -/
theorem storeH_eq (D : Hooks σ) (p : Promise σ) (v : σ.V) (s : St σ) :
    ∃ w, (w = s.w ∨ ∃ h, w = (D s.w h).1) ∧
      (storeH D p v s = (({ s with w := w }).onCache fun c => { c.emit (.built p v) with artifacts := c.artifacts.insert p.id v }, .val (.ok v)) ∨
      storeH D p v s = (({ s with w := w }).onCache fun c => { c.emit (.built p v) with artifacts := c.artifacts.insert p.id v }, .panic .user)) := by
  unfold storeH
  simp only
  cases s.c.artifacts[p.id]? with
  | none => exact ⟨s.w, .inl rfl, .inl rfl⟩
  | some old =>
    refine ⟨(D s.w (.drop old)).1, .inr ⟨_, rfl⟩, ?_⟩
    simp only [callHook, St.onCache]
    generalize D s.w (.drop old) = x
    obtain ⟨w, b⟩ := x
    cases b
    · exact .inl rfl
    · exact .inr rfl

/-- From the call of the builder on, with the hook in front of the insertion. -/
theorem callH_ok {Y : Sys σ} {I : St σ → Prop} [Stable Y I] (D : Hooks σ) {g : Getter σ} (hg : GetRanI I Y g) {p : Promise σ} {s2 : St σ} (i2 : I s2)
    (k2 : s2.c.known[p.id]? = some p.b) (hdm : p.id ∈ s2.c.dynStates) (ha2 : s2.c.artifacts[p.id]? = none)
    {y : St σ × Res (Except σ.E σ.V)} (hy : y = (match runProgH Y D g p (Y.code p.b) (s2.onCache (·.emit (.call p))) with
      | (s, .val (.ok v)) =>
        callHook D (.report (.built p v)) s (storeH D p v)
      | (s, .val (.error e)) => (s, .val (.error e))
      | (s, .panic k) => (s, .panic k)
      | (s, .stuck) => (s, .stuck)
      | (s, .overflow) => (s, .overflow))) :
    Ran Y noEx s2 y ∧ ∀ v, y.2 = .val (.ok v) → y.1.c.artifacts[p.id]? = some v ∧ Y.artTy v = Y.vty p.b := by
  have m3 : Micro Y s2 (s2.onCache (·.emit (.call p))) := .call p k2 hdm ha2
  have i3 := Stable.micro i2 m3
  have hr := runProgH_ran D hg (Y.code p.b) i3 (p := p) k2 hdm (.called s2 p)
  have hpre3 : ∀ {α : Type} {x : St σ × Res α},
      Ran Y (· = p.id) (s2.onCache (·.emit (.call p))) x → Ran Y noEx s2 x := by
    intro α x hx
    have hy : Ran Y (· = p.id) s2 x := Ran.step m3 rfl rfl hx
    refine ⟨hy.micros, hy.keep, hy.noInt, hy.artLocal, ?_⟩
    intro a _
    by_cases hap : a = p.id
    · refine Or.inr ⟨p, hap.symm, ?_⟩
      have h1 : Since s2 (s2.onCache (·.emit (.call p))) (.call p) :=
        ⟨[.call p], rfl, by simp⟩
      exact h1.of_suffix hx.micros.log_mono
    · exact hy.dynLocal a hap
  generalize runProgH Y D g p (Y.code p.b) (s2.onCache (·.emit (.call p))) = x at hr hy
  obtain ⟨s4, r4⟩ := x
  obtain ⟨hr, ht⟩ := hr
  cases r4 with
  | panic k => subst hy; exact ⟨(hpre3 hr).change (noInternal_cast hr.noInt), by intro v h; cases h⟩
  | stuck => subst hy; exact ⟨(hpre3 hr).change noInternal_stuck, by intro v h; cases h⟩
  | overflow => subst hy; exact ⟨(hpre3 hr).change noInternal_overflow, by intro v h; cases h⟩
  | val e =>
    cases e with
    | error e => subst hy; exact ⟨(hpre3 hr).change (noInternal_val _), by intro v h; cases h⟩
    | ok v =>
      simp only at hy
      have hlog : Event.call p ∈ s4.c.log := hr.micros.log_mono.mem (by simp [St.onCache, Cache.emit])
      have k4 : s4.c.known[p.id]? = some p.b := hr.micros.known_mono _ _ k2
      have d4 : p.id ∈ s4.c.dynStates := hr.micros.dyn_mono _ hdm
      have h1 : Since s2 (s2.onCache (·.emit (.call p))) (.call p) := ⟨[.call p], rfl, by simp⟩
      have hsc4 := h1.of_suffix hr.micros.log_mono
      refine ⟨?_, ?_⟩
      · have h4 := hpre3 hr
        have stored : ∀ (w : σ.W) (r : Res (Except σ.E σ.V)), r.noInternal → Ran Y noEx s2
            (({ s4 with w := w }).onCache fun c => { c.emit (.built p v) with artifacts := c.artifacts.insert p.id v }, r) := by
          intro w r hn
          refine ⟨?_, ?_, hn, ?_, ?_⟩
          · exact (h4.micros.tail (.world w)).tail (Micro.built (s := { s4 with w := w }) p v k4 d4 (ht v rfl) hlog)
          · intro a w hw
            have := h4.keep a w hw
            simp only [St.onCache, Cache.emit] at this ⊢
            -- the insertion is at `p`, for which nothing was cached
            grind
          · intro a
            by_cases hap : a = p.id
            · exact Or.inr ⟨p, hap.symm, hsc4.of_suffix (List.suffix_cons _ _)⟩
            · rcases h4.artLocal a with e | ⟨q, hq, hs⟩
              · left
                simp only [St.onCache, Cache.emit] at e ⊢
                grind
              · exact Or.inr ⟨q, hq, hs.of_suffix (List.suffix_cons _ _)⟩
          · intro a ha
            rcases h4.dynLocal a ha with e | ⟨q, hq, hs⟩
            · exact Or.inl e
            · exact Or.inr ⟨q, hq, hs.of_suffix (List.suffix_cons _ _)⟩
        subst hy
        unfold callHook
        split
        · next w _ => exact ⟨h4.micros.tail (.world w), h4.keep, noInternal_user, h4.artLocal, h4.dynLocal⟩
        · next w0 _ =>
          obtain ⟨w, _, e | e⟩ := storeH_eq D p v { s4 with w := w0 }
          · rw [e]; exact stored w _ (noInternal_val _)
          · rw [e]; exact stored w _ noInternal_user
      · intro v' hv'
        subst hy
        obtain ⟨w0, e⟩ := callHook_val hv'
        rw [e] at hv' ⊢
        obtain ⟨w, _, e | e⟩ := storeH_eq D p v { s4 with w := w0 }
        · rw [e] at hv' ⊢
          cases hv'
          exact ⟨by simp [St.onCache, Cache.emit], ht v rfl⟩
        · rw [e] at hv'
          cases hv'

theorem buildH_ok {Y : Sys σ} {I : St σ → Prop} [Stable Y I] (D : Hooks σ) {g : Getter σ} (hg : GetRanI I Y g) : BuildOkI I Y (buildH Y D g) := by
  have key : ∀ (p : Promise σ) (s : St σ), I s → s.live p = true →
      s.c.artifacts[p.id]? = none → Ran Y noEx s (buildH Y D g p s) ∧
      ∀ v, (buildH Y D g p s).2 = .val (.ok v) →
      (buildH Y D g p s).1.c.artifacts[p.id]? = some v ∧ Y.artTy v = Y.vty p.b := by
    intro p s hi hl ha
    have hca : containsArtifact p.id s.c = false := by
      simp only [containsArtifact]; grind
    unfold buildH
    simp only [hca, Bool.and_false, Bool.false_eq_true, if_false]
    have m1 : Micro Y s (s.onCache (makeKnown p)) := .known p hl
    have i1 := Stable.micro hi m1
    have a1 : (s.onCache (makeKnown p)).c.artifacts = s.c.artifacts := makeKnown_artifacts _ _
    have he := ensureDyn_ran i1 (p := p) hl
    generalize ensureDyn Y p (s.onCache (makeKnown p)) = x at he
    obtain ⟨s2, r⟩ := x
    obtain ⟨r2, k2, a2, d2⟩ := he
    simp only at k2 a2 d2
    have y1 : (s.onCache (makeKnown p)).c.dynStates = s.c.dynStates := makeKnown_dynStates _ _
    have hpre : Ran Y noEx s (s2, r) := Ran.step m1 a1 y1 r2
    cases r with
    | panic k => exact ⟨hpre.change (noInternal_cast r2.noInt), by intro v h; cases h⟩
    | stuck => exact ⟨hpre.change noInternal_stuck, by intro v h; cases h⟩
    | overflow => exact ⟨hpre.change noInternal_overflow, by intro v h; cases h⟩
    | val d =>
      simp only
      have hdm : p.id ∈ s2.c.dynStates := by have := d2 d rfl; grind
      have ha2 : s2.c.artifacts[p.id]? = none := by rw [a2, a1]; exact ha
      have i2 := r2.inv i1
      have hc := fun w => callH_ok D hg (s2 := { s2 with w := w }) (Stable.micro i2 (.world w)) k2 hdm ha2 rfl
      refine ⟨hpre.trans (Ran.hook fun w _ => (hc w).1), ?_⟩
      intro v hv
      obtain ⟨w, e⟩ := callHook_val hv
      rw [e] at hv ⊢
      exact (hc w).2 v hv
  exact ⟨fun p s h1 h2 h3 => (key p s h1 h2 h3).1, fun p s h1 h2 h3 => (key p s h1 h2 h3).2⟩

theorem getAH_okI (Y : Sys σ) (I : St σ → Prop) [Stable Y I] (D : Hooks σ) (n : Nat) : GetRanI I Y (getAH Y D n) ∧ BuildOkI I Y (buildNH Y D n) := by
  induction n with
  | zero => exact ⟨getByH_ran D (overflow_ok Y), overflow_ok Y⟩
  | succ n ih => exact ⟨getByH_ran D (buildH_ok D ih.1), buildH_ok D ih.1⟩

theorem getAH_ok (Y : Sys σ) (D : Hooks σ) (n : Nat) : GetRan Y (getAH Y D n) ∧ BuildOk Y (buildNH Y D n) :=
  getAH_okI Y (Inv Y) D n

end Daab
