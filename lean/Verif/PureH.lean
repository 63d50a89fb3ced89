import Verif.Pure
import Verif.Preserve

/-!
# Systems of pure builders whose doctor, `Debug` and `Clone` implementations misbehave

The invariant of `Pure.lean` survives hooks that act on the outside world and panic.  Used for C28 and
C29.
-/

open Std

namespace Daab

variable {σ : Sig} {Y : Sys σ} {s : St σ}

/-- Acting on the outside world changes nothing a pure builder sees. -/
theorem Grows.world (hY : PureSys Y) (s : St σ) (w : σ.W) : Grows Y s { s with w := w } :=
  ⟨fun _ _ h => h, fun q _ => stateOf_same hY q rfl, fun _ _ h => h, rfl, fun _ _ h => .inl h⟩

/-- What is known of a result `x` obtained from the state `s`. -/
structure SoundRes (Y : Sys σ) {α : Type} (s : St σ) (x : St σ × Res α) (P : St σ → α → Prop) : Prop where
  sound : Sound Y x.1
  grows : Grows Y s x.1
  val : ∀ r, x.2 = .val r → P x.1 r

theorem SoundRes.user {α : Type} {P : St σ → α → Prop} {s' : St σ} (h : Sound Y s') (hg : Grows Y s s') :
    SoundRes Y s (s', (.panic .user : Res α)) P := ⟨h, hg, fun r hr => by cases hr⟩

/-- Calling a hook before going on. -/
theorem SoundRes.hook {α : Type} {P : St σ → α → Prop} (hY : PureSys Y) (D : Hooks σ) (k : Hook σ)
    {s0 : St σ} {next : St σ → St σ × Res α} (hi : Inv Y s) (h : Sound Y s) (hg : Grows Y s0 s)
    (hn : ∀ w, Sound Y { s with w := w } → Grows Y s0 { s with w := w } →
      SoundRes Y s0 (next { s with w := w }) P) : SoundRes Y s0 (callHook D k s next) P := by
  obtain ⟨w, e | e⟩ := callHook_cases D k s next
  all_goals
    have g1 : Grows Y s0 { s with w := w } := hg.trans (.world hY s w)
    have h1 : Sound Y { s with w := w } := h.grows hi (.world hY s w) rfl
    rw [e]
  · exact .user h1 g1
  · exact hn w h1 g1

theorem runProgH_sound (hY : PureSys Y) (D : Hooks σ) {g : Getter σ} (hg : GetRan Y g) (hs : GetSound Y g)
    {p : Promise σ} (prog : Prog σ) (hp : prog.pure) (hr : Running Y p s) (h : Sound Y s) :
    SoundRes Y s (runProgH Y D g p prog s) fun s' r =>
      ScratchCode Y (stateOf Y s') (Linked s'.c) p prog r := by
  induction prog generalizing s with
  | ret r =>
    cases r with
    | error e => exact ⟨h, .refl s, by rintro r ⟨⟩; exact .ret⟩
    | ok v =>
      simp only [runProgH]
      refine ⟨?_, ?_, ?_⟩
      · split <;> exact h
      · split <;> exact .refl s
      · intro r hr'
        split at hr'
        · cases hr'; exact .ret
        · cases hr'
  | panic => exact ⟨h, .refl s, fun r hr' => by cases hr'⟩
  | resolve how q k ih =>
    cases hl : s.live q with
    | false =>
      rw [runProgH_resolve_dead hl]
      exact ⟨h, .refl s, fun r hr' => by cases hr'⟩
    | true =>
      rw [runProgH_resolve hr hl]
      have r1 := hr.micros (hr.tracked hl)
      have g1 : Grows Y s (tracked p q s) := tracked_grows hr hl
      have s1 : Sound Y (tracked p q s) := h.grows hr.inv g1
        (by simp only [tracked, St.onCache, addEdge, Cache.emit, makeKnown_artifacts])
      have hdep : Dep (tracked p q s).c p.id q.id := (addEdge_dep _ _ _ _ _).2 (Or.inr ⟨rfl, rfl⟩)
      refine SoundRes.hook hY D _ r1.inv s1 g1 fun w s1 g1 => ?_
      replace r1 : Running Y p { tracked p q s with w := w } := r1.micro (.world w)
      obtain ⟨s2, g2, hval⟩ := hs how q _ r1.inv s1
      have m2 := (hg how q _ r1.inv).micros
      generalize g how q { tracked p q s with w := w } = x at s2 g2 hval m2
      obtain ⟨sx, r⟩ := x
      cases r with
      | val r =>
        obtain ⟨r0, rfl, j⟩ := hval r rfl
        obtain ⟨h1, h2, h3⟩ := ih (seenEx Y how r0) (hp _) (r1.micros m2) s2
        refine ⟨h1, g1.trans (g2.trans h2), fun r hr' => ?_⟩
        have j' := j.grows h2
        obtain ⟨d, hd⟩ := j'.state
        exact .resolve ⟨h2.dep _ _ (g2.dep _ _ hdep), j'.known⟩ hd j'.code (h3 r hr')
      | _ => exact ⟨s2, g1.trans g2, fun r hr' => by cases hr'⟩
  | myState f k ih =>
    obtain ⟨d, hd, hst, e⟩ := hr.myState_eq f
    rw [runProgH_myState, e]
    split
    · next ht =>
      have g1 : Grows Y s (wrote p (f d) s) := by
        refine ⟨fun _ _ h => h, fun q _ => ?_, fun u d h => h, rfl, fun _ _ h => .inl h⟩
        apply stateOf_same hY
        simp only [wrote, Cache.emit, hp.1]
        grind
      have r1 := hr.micro (.setDyn p (f d) hr.known hr.dyn ht)
      obtain ⟨h1, h2, h3⟩ := ih d (hp.2 d) r1 (h.grows hr.inv g1 rfl)
      refine ⟨h1, g1.trans h2, fun r hr' => .myState (d := d) ?_ (h3 r hr')⟩
      have hk2 : Compat (runProgH Y D g p (k d) (wrote p (f d) s)).1 p :=
        compat_known (h2.known _ _ r1.known)
      refine (h2.state p hk2).trans ((g1.state p (h2.compat hk2)).trans ?_)
      simp [stateOf, hd]
    · exact ⟨h, .refl s, fun r hr' => by cases hr'⟩
  | world f k ih =>
    have m : Micro Y s { s with w := f s.w } := .world _
    have r1 := hr.micro m
    have g1 : Grows Y s { s with w := f s.w } := .world hY s _
    obtain ⟨h1, h2, h3⟩ := ih s.w (hp.2 s.w) r1 (h.grows hr.inv g1 rfl)
    exact ⟨h1, g1.trans h2, fun r hr' => .world (h3 r hr')⟩
  | alloc q k ih => exact hp.elim
  | free a k ih => exact hp.elim

/-- Specification of a build function in a pure system. -/
def BuildSound (Y : Sys σ) (bld : BuildFn σ) : Prop := ∀ p s, Inv Y s → Sound Y s → s.live p = true →
  s.c.artifacts[p.id]? = none → SoundRes Y s (bld p s) fun s' r => Justified Y s' p r

theorem buildH_sound (hY : PureSys Y) (D : Hooks σ) {g : Getter σ} (hg : GetRan Y g) (hs : GetSound Y g) :
    BuildSound Y (buildH Y D g) := by
  intro p s hi h hl ha
  obtain ⟨hg1, ha1, hd1⟩ := ensureDyn_grows hY hi hl
  rcases buildH_cases D g hi hl ha with ⟨s1, e1, e⟩ | ⟨s1, e1, e⟩ | ⟨s1, d, e1, e2⟩
  · rw [e]; rw [e1] at hg1 ha1
    exact ⟨h.grows hi hg1 ha1, hg1, fun r hr => by cases hr⟩
  · rw [e]; rw [e1] at hg1 ha1
    exact ⟨h.grows hi hg1 ha1, hg1, fun r hr => by cases hr⟩
  · rw [e2]
    rw [e1] at hg1 ha1 hd1
    obtain ⟨r1, m1, a1, d1⟩ := ensureDyn_running hi hl ha e1
    have i1 : Inv Y s1 := by
      have := (ensureDyn_ran hi hl (Y := Y)).1.inv hi
      rw [e1] at this
      exact this
    refine SoundRes.hook hY D _ i1 (h.grows hi hg1 ha1) hg1 fun w h1 g1 => ?_
    replace r1 : Running Y p (entered p { s1 with w := w }) := r1.micro (.world w)
    have g1' : Grows Y s (entered p { s1 with w := w }) := ⟨g1.known, g1.state, g1.dep, g1.heap, g1.back⟩
    obtain ⟨h2, g2, hv⟩ := runProgH_sound hY D hg hs (Y.code p.b) (hY.code p.b) r1 (h.grows hi g1' a1)
    have r2 := r1.micros (runProgH_ran D hg (Y.code p.b) r1.inv r1.known r1.dyn r1.pend).1.micros
    have g12 := g1'.trans g2
    have hst : ∃ d, stateOf Y (runProgH Y D g p (Y.code p.b) (entered p { s1 with w := w })).1 p =
        some d := ⟨d, by
      rw [g12.state p (compat_known r2.known)]; exact hd1 d rfl⟩
    generalize runProgH Y D g p (Y.code p.b) (entered p { s1 with w := w }) = x at h2 g2 hv r2 g12 hst
    obtain ⟨s2, r⟩ := x
    rcases r with (er | v) | _ | _ | _
    · refine ⟨h2, g12, ?_⟩
      rintro r ⟨⟩
      exact ⟨r2.known, hst, hv _ rfl⟩
    · simp only [finishH]
      have j : Justified Y s2 p (.ok v) := ⟨r2.known, hst, hv _ rfl⟩
      refine SoundRes.hook hY D _ r2.inv h2 g12 fun w' h3 g3 => ?_
      obtain ⟨w2, _, e3, e4⟩ := storeH_finish D p v { s2 with w := w' }
      have g4 : Grows Y s2 (storeH D p v { s2 with w := w' }).1 := by
        rw [e3]
        exact ⟨fun _ _ h => h, fun q _ => stateOf_same hY q rfl, fun _ _ h => h, rfl, fun _ _ h => .inl h⟩
      refine ⟨?_, g12.trans g4, ?_⟩
      · intro q x hk hx
        rw [e3] at hk hx
        by_cases hqp : q.id = p.id
        · have hk2 : s2.c.known[q.id]? = some q.b := hk
          rw [hqp, r2.known] at hk2
          have : q = p := by cases q; cases p; cases hqp; cases hk2; rfl
          subst this
          have : x = v := by
            simp only [finish, St.onCache] at hx
            grind
          subst this
          exact j.grows g4
        · rw [finish_artifacts hqp] at hx
          exact (h2 q x hk hx).grows g4
      · intro r hr
        rcases e4 with e4 | e4
        · rw [e4] at hr
          cases hr
          exact j.grows g4
        · rw [e4] at hr; cases hr
    · exact ⟨h2, g12, fun r hr => by cases hr⟩
    · exact ⟨h2, g12, fun r hr => by cases hr⟩
    · exact ⟨h2, g12, fun r hr => by cases hr⟩

theorem getByH_sound (hY : PureSys Y) (D : Hooks σ) {bld : BuildFn σ} (hb : BuildOk Y bld)
    (hs : BuildSound Y bld) : GetSound Y (getByH Y D bld) := by
  have hby : ∀ how p s, Inv Y s → Sound Y s → s.live p = true →
      SoundRes Y s (getBy Y bld how p s) fun s' r => ∃ r0, r = seenEx Y how r0 ∧ Justified Y s' p r0 := by
    intro how p s hi h hl
    cases ha : s.c.artifacts[p.id]? with
    | some v =>
      rw [getBy_hit hi bld how hl ha]
      refine ⟨h, .refl s, ?_⟩
      rintro r ⟨⟩
      refine ⟨.ok v, rfl, h p v ?_ ha⟩
      obtain ⟨b, hb⟩ := hi.art_known ha
      rw [hi.heapKnown _ _ _ hb (live_iff.1 hl)] at hb
      exact hb
    | none =>
      rw [getBy_miss hi hb how hl ha]
      obtain ⟨h1, h2, h3⟩ := hs p s hi h hl ha
      refine ⟨h1, h2, ?_⟩
      intro r hr
      simp only at hr
      generalize (bld p s).2 = y at hr h3
      rcases y with (e | v) | _ | _ | _
      · cases hr; exact ⟨.error e, rfl, h3 _ rfl⟩
      · cases hr; exact ⟨.ok v, rfl, h3 _ rfl⟩
      all_goals cases hr
  intro how p s hi h
  cases hl : s.live p with
  | false =>
    simp only [getByH, hl]
    exact ⟨h, .refl s, fun r hr => by cases hr⟩
  | true =>
    have href := hby .ref p s hi h hl
    cases how with
    | ref =>
      have := hby .ref p s hi h hl
      simp only [getBy, getByH, hl, if_true] at this ⊢
      exact ⟨this.1, this.2, this.3⟩
    | bin =>
      have := hby .bin p s hi h hl
      simp only [getBy, getByH, hl, if_true] at this ⊢
      exact ⟨this.1, this.2, this.3⟩
    | cloned =>
      have hi' : Inv Y (getBy Y bld .ref p s).1 := by
        cases ha : s.c.artifacts[p.id]? with
        | some v => rw [getBy_hit hi bld .ref hl ha]; exact hi
        | none =>
          rw [getBy_miss hi hb .ref hl ha]
          exact (hb.ran p s hi hl ha).inv hi
      simp only [getBy, getByH, hl, if_true, getClonedH] at href hi' ⊢
      generalize getRef Y bld p s = x at href hi'
      obtain ⟨s1, r⟩ := x
      obtain ⟨h1, h2, h3⟩ := href
      rcases r with (e | v) | _ | _ | _
      · obtain ⟨r0, e0, j⟩ := h3 _ rfl
        refine ⟨h1, h2, ?_⟩
        rintro r ⟨⟩
        refine ⟨r0, ?_, j⟩
        cases r0 <;> cases e0
        rfl
      · obtain ⟨r0, e0, j⟩ := h3 _ rfl
        have := SoundRes.hook hY D (.clone v) (P := fun s' r => ∃ r0, r = seenEx Y .cloned r0 ∧ Justified Y s' p r0)
          (next := fun s => (s, (.val (.ok (Y.clone v)) : Res (Except σ.E σ.V)))) hi' h1 h2 fun w k1 k2 => by
            refine ⟨k1, k2, ?_⟩
            rintro r ⟨⟩
            refine ⟨r0, ?_, j.grows (.world hY _ w)⟩
            cases r0 <;> cases e0
            rfl
        exact ⟨this.1, this.2, this.3⟩
      all_goals exact ⟨h1, h2, fun r hr => by cases hr⟩

theorem getAH_sound (hY : PureSys Y) (D : Hooks σ) (n : Nat) : GetSound Y (getAH Y D n) := by
  induction n with
  | zero =>
    refine getByH_sound hY D (getAH_ok Y D 0).2 ?_
    intro p s hi h hl ha
    exact ⟨h, .refl s, fun r hr => by cases hr⟩
  | succ n ih => exact getByH_sound hY D (getAH_ok Y D (n + 1)).2 (buildH_sound hY D (getAH_ok Y D n).1 ih)

end Daab
