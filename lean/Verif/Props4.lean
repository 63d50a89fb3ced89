import Verif.Stray
import Verif.Demo

/-!
# Properties: panics of the garbage collection and of mutable access (findings 1 and 2), internal
panics, identity, access variants
-/

open Std

namespace Daab

variable {σ : Sig} {Y : Sys σ} {s : St σ}

/-! ## C21 -/

/-- Ids that were purged, invalidated, mutably looked up or given to `dyn_state_mut` and have not been
known since (and `clear_all` was not called since).  (`dyn_state_mut` makes the id known unless the doctor
panics when told of the invalidation.) -/
inductive Strayed (Y : Sys σ) (a : Id) : St σ → Prop
  | made {s s' : St σ} {op : Op σ} {r : Res (Ans σ)} : Reachable Y s → Went Y s op s' r → r.goesOn →
      ((∃ p, op = .purge p ∧ p.id = a) ∨ (∃ p, op = .invalidate p ∧ p.id = a) ∨
        (∃ p f, op = .lookupMut p f ∧ p.id = a) ∨ ∃ p f, op = .dynStateMut p f ∧ p.id = a) →
      ¬ Known s' a → Strayed Y a s'
  | kept {s s' : St σ} {op : Op σ} {r : Res (Ans σ)} : Strayed Y a s → Reachable Y s →
      Went Y s op s' r → r.goesOn → op ≠ .clearAll → ¬ Known s' a → Strayed Y a s'

theorem Went.stray {s' : St σ} {op : Op σ} {r : Res (Ans σ)} (h : Went Y s op s' r) (hi : Inv Y s)
    (hg : r.goesOn) (a : Id) :
    StrayLeaf s'.c a ↔ a ∉ s'.c.known ∧ op ≠ .clearAll ∧ (op.strays a ∨ StrayLeaf s.c a) := by
  cases h with
  | plain n ord => exact step_stray hi n ord op hg a
  | hooked D n ord => exact stepH_stray hi D n ord op hg a

theorem strayed_iff (h : Reachable Y s) (a : Id) : StrayLeaf s.c a ↔ Strayed Y a s := by
  have key : ∀ {s s' : St σ} {op : Op σ} {r : Res (Ans σ)}, Reachable Y s → Went Y s op s' r → r.goesOn →
      (StrayLeaf s.c a → Strayed Y a s) → StrayLeaf s'.c a → Strayed Y a s' := by
    intro s s' op r hr hw hg ih ha
    obtain ⟨h1, h2, h3⟩ := (hw.stray hr.inv hg a).1 ha
    rcases h3 with h3 | h3
    · exact .made hr hw hg h3 h1
    · exact .kept (ih h3) hr hw hg h2 h1
  constructor
  · intro ha
    induction h with
    | new w => simp [StrayLeaf, St.new] at ha
    | step n ord op hr hg ih => exact key hr (.plain n ord) hg ih ha
    | hooked D n ord op hr hg ih => exact key hr (.hooked D n ord) hg ih ha
  · intro hs
    induction hs with
    | made hr hw hg h1 h2 =>
      refine (hw.stray hr.inv hg a).2 ⟨h2, ?_, Or.inl h1⟩
      rintro rfl
      rcases h1 with ⟨p, h, _⟩ | ⟨p, h, _⟩ | ⟨p, f, h, _⟩ | ⟨p, f, h, _⟩ <;> cases h
    | kept _ hr hw hg h1 h2 ih =>
      exact (hw.stray hr.inv hg a).2 ⟨h2, h1, Or.inr (ih hr)⟩

/-- **C21** is false.  In every reachable state: purge any builder, then collect garbage: panic. -/
theorem C21_gc_panics_after_purge (h : Reachable Y s) {p : Promise σ} (hl : s.live p = true)
    (n n' : Nat) (ord ord' : HashOrder) :
    (step Y n' ord' (step Y n ord s (.purge p)).1 .gc).2 = .panic .leafUnknown := by
  have hg : (step Y n ord s (.purge p)).2.goesOn := by
    rw [(C10_invalidation_total h hl n ord id).2.1]; trivial
  have hr := Reachable.step n ord _ h hg
  have hk := (C13_purge h hl n ord).2.2.1
  have hs : StrayLeaf (step Y n ord s (.purge p)).1.c p.id :=
    (step_stray h.inv n ord _ hg p.id).2 ⟨hk, by simp, Or.inl (Or.inl ⟨p, rfl, rfl⟩)⟩
  rcases step_gc hr n' ord' with ⟨e, _⟩ | ⟨h1, _⟩
  · rw [e]
  · exact absurd (h1 _ hs.1) hs.2

example : (step Demo.Y 0 Demo.ord (step Demo.Y 0 Demo.ord Demo.s1 (.purge (Demo.P 1))).1 .gc).2 =
    .panic .leafUnknown := C21_gc_panics_after_purge Demo.reach1 (by decide) 0 0 Demo.ord Demo.ord

/-- **C21**, what does hold: the garbage collection either returns, or panics at the index operation
in line 901 and changes nothing; the latter exactly if some id was purged (or invalidated or mutably
looked up while unknown) and has not become known since. -/
theorem C21_gc_panics_iff_partial (h : Reachable Y s) (n : Nat) (ord : HashOrder) :
    ((step Y n ord s .gc).2 = .val .unit ∨ step Y n ord s .gc = (s, .panic .leafUnknown)) ∧
    ((step Y n ord s .gc).2 ≠ .val .unit ↔ ∃ a, Strayed Y a s) := by
  rcases step_gc h n ord with ⟨e, a, h1, h2⟩ | ⟨h1, c', e, _⟩
  · rw [e]
    exact ⟨Or.inr rfl, fun _ => ⟨a, (strayed_iff h a).1 ⟨h1, h2⟩⟩, fun _ => by simp⟩
  · rw [e]
    refine ⟨Or.inl rfl, fun h => absurd rfl h, ?_⟩
    rintro ⟨a, ha⟩
    have := (strayed_iff h a).2 ha
    exact absurd (h1 a this.1) this.2

/-- Both cases occur. -/
example : (step Demo.Y 0 Demo.ord Demo.s1 .gc).2 = .val .unit ∧
    (step Demo.Y 0 Demo.ord (step Demo.Y 0 Demo.ord Demo.s1 (.invalidate (Demo.P 3))).1 .gc).2 =
      .panic .leafUnknown := ⟨rfl, rfl⟩

/-- Histories which never purge, and invalidate or mutably look up only known builders; the doctor may
panic, too, but not when `dyn_state_mut` reports the invalidation of an unknown builder. -/
inductive CalmReach (Y : Sys σ) : St σ → Prop
  | new (w : σ.W) : CalmReach Y (St.new w)
  | step {s s' : St σ} {op : Op σ} {r : Res (Ans σ)} : CalmReach Y s → Went Y s op s' r → r.goesOn →
      (∀ p, op ≠ .purge p) → (∀ p, op = .invalidate p → Known s p.id) →
      (∀ p f, op = .lookupMut p f → Known s p.id) →
      (∀ p f, op = .dynStateMut p f → Known s p.id ∨ r ≠ .panic .user) → CalmReach Y s'

theorem CalmReach.reachable (h : CalmReach Y s) : Reachable Y s := by
  induction h with
  | new w => exact .new w
  | step _ hw hg _ _ _ _ ih => exact ih.went hw hg

/-- Mutable lookup does not change who is known. -/
theorem lookupMut_known (h : Reachable Y s) (n : Nat) (ord : HashOrder) {p : Promise σ}
    {f : σ.V → σ.V} (hg : (step Y n ord s (.lookupMut p f)).2.goesOn) :
    (step Y n ord s (.lookupMut p f)).1.c.known = s.c.known := by
  cases hl : s.live p with
  | false => simp [step, Op.promise?, hl, Res.goesOn] at hg
  | true =>
    rw [step_live rfl hl] at hg ⊢
    simp only [exec] at hg ⊢
    rcases lookupMut_spec h.inv ord hl with ⟨c', he, _⟩ | ⟨c1, he, h1⟩
    · rw [he] at hg; exact absurd rfl hg
    · have s1 := (invalidateDependents_addStray h.inv h1).1
      rw [he]
      cases ha : c1.artifacts[p.id]? with
      | none => exact s1
      | some v =>
        simp only [writeArt]
        by_cases ht : Y.artTy (f v) = Y.vty p.b
        · simp only [ht, if_true, Cache.emit, s1]
        · simp only [ht, if_false, s1]

theorem Went.live {s' : St σ} {op : Op σ} {r : Res (Ans σ)} (h : Went Y s op s' r) (hg : r.goesOn)
    {p : Promise σ} (hp : op.promise? = some p) : s.live p = true := by
  cases hl : s.live p with
  | true => rfl
  | false =>
    cases h with
    | plain n ord => simp [step, hp, hl, Res.goesOn] at hg
    | hooked D n ord => simp [stepH, hp, hl, Res.goesOn] at hg

theorem stepH_live {D : Hooks σ} {n : Nat} {ord : HashOrder} {op : Op σ} {p : Promise σ}
    (hp : op.promise? = some p) (hl : s.live p = true) : stepH Y D n ord s op = execH Y D n ord s op := by
  simp [stepH, hp, hl]

theorem Went.invalidate_known {s' : St σ} {p : Promise σ} {r : Res (Ans σ)} (h : Went Y s (.invalidate p) s' r)
    (hg : r.goesOn) (hr : Reachable Y s) : s'.c.known = s.c.known := by
  have hl := h.live hg rfl
  cases h with
  | plain n ord =>
    obtain ⟨c', he, hd⟩ := step_invalidate hr hl n ord
    rw [he]; exact hd.known
  | hooked D n ord =>
    obtain ⟨c', he, hd⟩ := step_invalidate hr hl n ord
    rw [step_live rfl hl] at he
    obtain ⟨w, h1, _⟩ := execH_shallow (Y := Y) (s := s) D n ord (.invalidate p) rfl
    rw [stepH_live rfl hl, h1, he]
    exact hd.known

theorem Went.lookupMut_known {s' : St σ} {p : Promise σ} {f : σ.V → σ.V} {r : Res (Ans σ)}
    (h : Went Y s (.lookupMut p f) s' r) (hg : r.goesOn) (hr : Reachable Y s) : s'.c.known = s.c.known := by
  cases h with
  | plain n ord => exact Daab.lookupMut_known hr n ord hg
  | hooked D n ord => exact Daab.lookupMut_known hr n ord hg

theorem Went.dynStateMut_known {s' : St σ} {p : Promise σ} {f : σ.S → σ.S} {r : Res (Ans σ)}
    (h : Went Y s (.dynStateMut p f) s' r) (hg : r.goesOn) (hr : Reachable Y s)
    (hk : Known s p.id ∨ r ≠ .panic .user) : Known s' p.id := by
  have hl := h.live hg rfl
  cases h with
  | plain n ord =>
    obtain ⟨c', he, hd⟩ := invalidate_spec hr.inv ord p
    have hinv := hr.inv.invalidated hd
    rw [step_live rfl hl]
    simp only [exec, dynStateMut, he]
    obtain ⟨_, hk, _⟩ := ensureDyn_ran hinv (p := p) hl (Y := Y)
    generalize ensureDyn Y p { s with c := c'.emit (.invalidate p) } = x at hk ⊢
    obtain ⟨s2, r⟩ := x
    have hk := (mem_getElem _ _).2 ⟨_, hk⟩
    cases r with
    | val d => simp only; split <;> exact hk
    | _ => exact hk
  | hooked D n ord =>
    obtain ⟨c', he, hd⟩ := invalidate_spec hr.inv ord p
    have hinv := hr.inv.invalidated hd
    rw [stepH_live rfl hl] at hk ⊢
    simp only [execH, dynStateMutH, he, callHook] at hk ⊢
    split
    · next w hw =>
      rw [hw] at hk
      rcases hk with hk | hk
      · simpa only [Known, Cache.emit, hd.known] using hk
      · exact absurd rfl hk
    · next w hw =>
      have hinv := hinv.micro (.world w)
      obtain ⟨_, hk, _⟩ := ensureDyn_ran hinv (p := p) hl (Y := Y)
      simp only at hk ⊢
      generalize ensureDyn Y p { s with c := c'.emit (.invalidate p), w := w } = x at hk ⊢
      obtain ⟨s2, r⟩ := x
      have hk := (mem_getElem _ _).2 ⟨_, hk⟩
      cases r with
      | val d => simp only; split <;> exact hk
      | _ => exact hk

/-- **C21**, what does hold: without `purge` and without invalidating or mutably looking up unknown
builders (and without a doctor that panics at the invalidation of an unknown builder) the garbage
collection always returns. -/
theorem C21_gc_returns_partial (h : CalmReach Y s) (n : Nat) (ord : HashOrder) :
    (step Y n ord s .gc).2 = .val .unit := by
  have hr := h.reachable
  have key : ∀ a, ¬ StrayLeaf s.c a := by
    induction h with
    | new w => intro a; simp [StrayLeaf, St.new]
    | @step s s' op r hc hw hg h1 h2 h3 h7 ih =>
      intro a ha
      have hr0 := hc.reachable
      obtain ⟨h4, h5, h6⟩ := (hw.stray hr0.inv hg a).1 ha
      rcases h6 with (⟨p, rfl, _⟩ | ⟨p, rfl, rfl⟩ | ⟨p, f, rfl, rfl⟩ | ⟨p, f, rfl, rfl⟩) | h6
      · exact h1 p rfl
      · exact h4 (by rw [hw.invalidate_known hg hr0]; exact h2 p rfl)
      · exact h4 (by rw [hw.lookupMut_known hg hr0]; exact h3 p f rfl)
      · exact h4 (hw.dynStateMut_known hg hr0 (h7 p f rfl))
      · exact ih hr0 a h6
  rcases step_gc hr n ord with ⟨e, a, h1, h2⟩ | ⟨h1, c', e, _⟩
  · exact absurd ⟨h1, h2⟩ (key a)
  · rw [e]

/-- The hypothesis is met by a history that builds and invalidates. -/
example : CalmReach Demo.Y (runOps Demo.Y 9 Demo.ord [.alloc (Demo.P 0), .get .bin (Demo.P 0),
    .invalidate (Demo.P 0)] (St.new (σ := Demo.sig) (0 : Nat))) :=
  .step (op := .invalidate (Demo.P 0))
    (.step (op := .get .bin (Demo.P 0))
      (.step (op := .alloc (Demo.P 0)) (CalmReach.new (Y := Demo.Y) (0 : Nat)) (.plain 9 Demo.ord) trivial
        (fun _ h => by cases h) (fun _ h => by cases h) (fun _ _ h => by cases h) (fun _ _ h => by cases h))
      (.plain 9 Demo.ord) trivial (fun _ h => by cases h) (fun _ h => by cases h) (fun _ _ h => by cases h)
      (fun _ _ h => by cases h))
    (.plain 9 Demo.ord) trivial (fun _ h => by cases h) (fun p h => by cases h; unfold Known; decide)
    (fun _ _ h => by cases h) (fun _ _ h => by cases h)

/-! ## C22 -/

theorem noInternal_ne {α : Type} {r : Res α} (h : r.noInternal) : r ≠ .panic .noCounterpart := by
  intro he
  rcases h _ he with h | h <;> cases h

/-- **C22** is false.  `lookup_mut(p)` and `get_mut(p)` panic exactly if some other builder is
recorded to have used `p`, which is the case they are made for. -/
theorem C22_mut_panics_iff (h : Reachable Y s) {p : Promise σ} (hl : s.live p = true) (n : Nat)
    (ord : HashOrder) (f : σ.V → σ.V) :
    ((step Y n ord s (.lookupMut p f)).2 = .panic .noCounterpart ↔
      ∃ x, x ≠ p.id ∧ UsesNow s x p.id) ∧
    ((step Y n ord s (.getMut p f)).2 = .panic .noCounterpart ↔
      ∃ x, x ≠ p.id ∧ UsesNow s x p.id) := by
  simp only [usesNow_iff]
  rw [step_live rfl hl, step_live rfl hl]
  constructor
  · simp only [exec]
    rcases lookupMut_spec h.inv ord hl with ⟨c', he, hx⟩ | ⟨c1, he, h1⟩
    · rw [he]; exact ⟨fun _ => hx, fun _ => rfl⟩
    · rw [he]
      constructor
      · intro hp
        exfalso
        cases ha : c1.artifacts[p.id]? with
        | none => rw [ha] at hp; cases hp
        | some v =>
          rw [ha] at hp
          simp only at hp
          split at hp <;> cases hp
      · rintro ⟨x, hx1, hx2⟩
        rcases h.inv.invalidateDependents ord p.id with ⟨c', he', _⟩ | ⟨c', he', hall, _⟩
        · rw [h1] at he'; cases he'
        · exact absurd (hall x hx2) hx1
  · simp only [exec]
    rcases getMut_spec h.inv n ord hl with ⟨c', he, hx⟩ | ⟨c1, h1, h2⟩
    · rw [he]; exact ⟨fun _ => hx, fun _ => rfl⟩
    · rcases h.inv.invalidateDependents ord p.id with ⟨c', he', _⟩ | ⟨c', he', hall, hinv, _⟩
      · rw [h1] at he'; cases he'
      · rw [h1] at he'
        cases he'
        constructor
        · intro hp
          exfalso
          rcases h2 with ⟨c2, v, _, _, _, _, he⟩ | ⟨h3, he⟩
          · rw [he] at hp
            simp only at hp
            split at hp <;> cases hp
          · rw [he] at hp
            have hn := ((getA_ok Y n).2.ran p { s with c := c1 } hinv hl h3).noInt
            generalize buildN Y n p { s with c := c1 } = x at hp hn
            obtain ⟨s2, r⟩ := x
            rcases r with (e | v) | k | _ | _
            · cases hp
            · simp only at hp
              split at hp <;> cases hp
            · simp only at hp
              cases hp
              exact noInternal_ne hn rfl
            · cases hp
            · cases hp
        · rintro ⟨x, hx1, hx2⟩
          exact absurd (hall x hx2) hx1

/-- Both cases occur: 0 was used, 2 was not. -/
example : (step Demo.Y 9 Demo.ord Demo.s1 (.lookupMut (Demo.P 0) (· + 1))).2 = .panic .noCounterpart ∧
    (step Demo.Y 9 Demo.ord Demo.s1 (.lookupMut (Demo.P 2) (· + 1))).2 = .val (.optArt (some 110)) ∧
    (step Demo.Y 9 Demo.ord Demo.s1 (.getMut (Demo.P 1) (· + 1))).2 = .panic .noCounterpart ∧
    (step Demo.Y 9 Demo.ord Demo.s1 (.getMut (Demo.P 2) (· + 1))).2 = .val (.art (.ok 110)) :=
  ⟨rfl, rfl, rfl, rfl⟩

/-- **C22**, what does hold: if no other builder is recorded to have used `p` (and `p` has not used
itself), `lookup_mut(p)` returns the cached artifact, what the caller writes is what is cached
afterwards, and everything else is untouched. -/
theorem C22_lookup_mut_partial (h : Reachable Y s) {p : Promise σ} (hl : s.live p = true) (n : Nat)
    (ord : HashOrder) {f : σ.V → σ.V} (hno : ∀ x, ¬ UsesNow s x p.id)
    (hty : ∀ v, Y.artTy v = Y.vty p.b → Y.artTy (f v) = Y.vty p.b) :
    let s' := (step Y n ord s (.lookupMut p f)).1
    (step Y n ord s (.lookupMut p f)).2 = .val (.optArt (s.c.artifacts[p.id]?)) ∧
    (∀ v, Cached s p.id v → Cached s' p.id (f v)) ∧ (Uncached s p.id → Uncached s' p.id) ∧
    (∀ a v, a ≠ p.id → (Cached s' a v ↔ Cached s a v)) ∧
    (∀ a d, HasState s' a d ↔ HasState s a d) ∧ (∀ a, Known s' a ↔ Known s a) ∧
    (∀ u d, UsesNow s' u d ↔ UsesNow s u d) ∧ s'.w = s.w ∧ s'.heap = s.heap := by
  have hno' : ∀ x, ¬ Dep s.c x p.id := fun x hx => hno x ((usesNow_iff s x p.id).2 hx)
  have hi := h.inv
  rw [step_live rfl hl]
  simp only [exec]
  have h1 := invalidateDependents_none Y ord p.id s.c hno'
  rcases lookupMut_spec hi ord hl with ⟨c', he, x, hx⟩ | ⟨c1, he, h2⟩
  · exact absurd hx.2 (hno' x)
  rw [h1] at h2
  cases h2
  rw [he]
  have hart : ({ s.c with dependents := s.c.dependents.erase p.id, leafs := s.c.leafs.insert p.id } :
    Cache σ).artifacts = s.c.artifacts := rfl
  have huse : ∀ (c : Cache σ), c.dependents = s.c.dependents.erase p.id → ∀ u d,
      (UsesNow { s with c := c } u d ↔ UsesNow s u d) := by
    intro c hc u d
    unfold UsesNow
    simp only [hc]
    by_cases hd : d = p.id
    · subst hd
      constructor
      · rintro ⟨us, h, _⟩; simp at h
      · intro hu; exact absurd hu (hno u)
    · have : (s.c.dependents.erase p.id)[d]? = s.c.dependents[d]? := by grind
      rw [this]
  cases ha : s.c.artifacts[p.id]? with
  | none =>
    simp only [Cache.emit, ha]
    refine ⟨trivial, ?_, fun _ => ha, fun _ _ _ => Iff.rfl, fun _ _ => Iff.rfl, fun _ => Iff.rfl,
      huse _ rfl, trivial, trivial⟩
    intro v hv; unfold Cached at hv; rw [ha] at hv; cases hv
  | some v =>
    have hm : p.id ∈ s.c.artifacts := (mem_getElem _ _).2 ⟨v, ha⟩
    obtain ⟨b, hb⟩ := (mem_getElem _ _).1 (hi.dynKnown _ (hi.artDyn _ hm))
    have hbb := hi.heapKnown _ _ _ hb (live_iff.1 hl)
    subst hbb
    have ht := hty v (hi.artTy _ _ _ ha hb)
    simp only [Cache.emit, ha, writeArt, ht, if_true]
    refine ⟨trivial, ?_, ?_, ?_, fun _ _ => Iff.rfl, fun _ => Iff.rfl, huse _ rfl, trivial, trivial⟩
    · intro v' hv'
      unfold Cached at hv' ⊢
      rw [ha] at hv'
      cases hv'
      simp
    · intro hu; unfold Uncached at hu; rw [ha] at hu; cases hu
    · intro a w hne
      unfold Cached
      simp only
      grind

/-- The hypotheses are met by builder 2: nothing used it. -/
example : (∀ x, ¬ UsesNow Demo.s1 x 12) ∧
    Cached (step Demo.Y 9 Demo.ord Demo.s1 (.lookupMut (Demo.P 2) (· + 1))).1 12 111 := by
  refine ⟨?_, by unfold Cached; decide⟩
  rintro x ⟨us, h, _⟩
  rw [show Demo.s1.c.dependents[12]? = none by decide] at h
  cases h

/-- **C22**, what does hold for `get_mut(p)` if nothing is recorded to have used `p`: a cached artifact
is returned and overwritten without any build; otherwise the result of a build is returned and, if it
is an artifact, overwritten; no other cached artifact changes. -/
theorem C22_get_mut_partial (h : Reachable Y s) {p : Promise σ} (hl : s.live p = true) (n : Nat)
    (ord : HashOrder) {f : σ.V → σ.V} (hno : ∀ x, ¬ UsesNow s x p.id)
    (hty : ∀ v, Y.artTy v = Y.vty p.b → Y.artTy (f v) = Y.vty p.b) :
    let s' := (step Y n ord s (.getMut p f)).1
    (∀ v, Cached s p.id v → (step Y n ord s (.getMut p f)).2 = .val (.art (.ok v)) ∧ s'.w = s.w ∧
      ∀ q, ¬ Since s s' (.call q)) ∧
    (∀ v, (step Y n ord s (.getMut p f)).2 = .val (.art (.ok v)) → Cached s' p.id (f v)) ∧
    (∀ e, (step Y n ord s (.getMut p f)).2 = .val (.art (.error e)) → Uncached s p.id) ∧
    (∀ a v, a ≠ p.id → Cached s a v → Cached s' a v) := by
  have hno' : ∀ x, ¬ Dep s.c x p.id := fun x hx => hno x ((usesNow_iff s x p.id).2 hx)
  have hi := h.inv
  rw [step_live rfl hl]
  simp only [exec]
  have h1 := invalidateDependents_none Y ord p.id s.c hno'
  rcases getMut_spec hi n ord hl with ⟨c', he, x, hx⟩ | ⟨c1, h2, h3⟩
  · exact absurd hx.2 (hno' x)
  rcases hi.invalidateDependents ord p.id with ⟨c', he', _⟩ | ⟨c', he', _, hinv, _⟩
  · rw [h2] at he'; cases he'
  rw [h2] at he'
  cases he'
  rw [h1] at h2
  cases h2
  rcases h3 with ⟨c2, v, h4, h5, h6, hinv2, he⟩ | ⟨h4, he⟩
  · rw [he]
    simp only [Cache.emit] at h4
    have hno2 : ∀ x, ¬ Dep (({ s.c with
        dependents := s.c.dependents.erase p.id,
        leafs := s.c.leafs.insert p.id } : Cache σ).emit (.mutDeps p.id)) x p.id := by
      intro x hx; simp [Dep, setAt, Cache.emit] at hx
    rw [invalidateDependents_none Y ord p.id _ hno2] at h5
    cases h5
    have hm : p.id ∈ s.c.artifacts := (mem_getElem _ _).2 ⟨v, h4⟩
    obtain ⟨b, hb⟩ := (mem_getElem _ _).1 (hi.dynKnown _ (hi.artDyn _ hm))
    have hbb := hi.heapKnown _ _ _ hb (live_iff.1 hl)
    subst hbb
    have ht := hty v (hi.artTy _ _ _ h4 hb)
    simp only [writeArt, ht, if_true, Cache.emit]
    refine ⟨?_, ?_, ?_, ?_⟩
    · intro v' hv'
      unfold Cached at hv'
      rw [h4] at hv'
      cases hv'
      refine ⟨rfl, trivial, ?_⟩
      rintro q ⟨new, hn, hm⟩
      simp only at hn
      have : new = [.write p.id (f v), .mutDeps p.id, .mutDeps p.id] := by
        have : [Event.write p.id (f v), .mutDeps p.id, .mutDeps p.id] ++ s.c.log = new ++ s.c.log := hn
        exact (List.append_cancel_right this).symm
      rw [this] at hm
      simp at hm
    · intro v' hv'
      cases hv'
      simp [Cached]
    · intro e he'; cases he'
    · intro a w hne hw
      unfold Cached at hw ⊢
      simp only
      grind
  · rw [he]
    simp only [Cache.emit] at h4
    have hran := (getA_ok Y n).2.ran p _ hinv hl h4
    have hok := (getA_ok Y n).2.ok p _ hinv hl h4
    generalize buildN Y n p _ = x at hran hok
    obtain ⟨s2, r⟩ := x
    have hkeep : ∀ a v, Cached s a v → s2.c.artifacts[a]? = some v := fun a v hv => hran.keep a v hv
    have hcon : ∀ v, ¬ Cached s p.id v := by
      intro v hv; unfold Cached at hv; rw [h4] at hv; cases hv
    rcases r with (e | v) | k | _ | _
    · exact ⟨fun v hv => absurd hv (hcon v), by simp, fun _ _ => h4, fun a v _ hv => hkeep a v hv⟩
    · have ht := hty v (hok v rfl).2
      simp only [writeArt, ht, if_true, Cache.emit]
      refine ⟨fun v hv => absurd hv (hcon v), ?_, by simp, ?_⟩
      · intro v' hv'; cases hv'; simp [Cached]
      · intro a w hne hw
        have := hkeep a w hw
        unfold Cached
        simp only
        grind
    · exact ⟨fun v hv => absurd hv (hcon v), by simp, by simp, fun a v _ hv => hkeep a v hv⟩
    · exact ⟨fun v hv => absurd hv (hcon v), by simp, by simp, fun a v _ hv => hkeep a v hv⟩
    · exact ⟨fun v hv => absurd hv (hcon v), by simp, by simp, fun a v _ hv => hkeep a v hv⟩

/-- Nobody uses builder 2: `get_mut` may write. -/
example : Cached (step Demo.Y 9 Demo.ord Demo.s1 (.getMut (Demo.P 2) (· + (1 : Nat)))).1 12 (111 : Nat) := by
  have hno : ∀ x, ¬ UsesNow Demo.s1 x 12 := by
    rintro x ⟨us, h, _⟩
    rw [show Demo.s1.c.dependents[12]? = none by decide] at h
    cases h
  exact (C22_get_mut_partial Demo.reach1 (p := Demo.P 2) (by decide) 9 Demo.ord (f := (· + (1 : Nat))) hno
    (fun _ _ => by rfl)).2.1 (110 : Nat) rfl

end Daab
