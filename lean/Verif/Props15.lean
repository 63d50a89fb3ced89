import Verif.Props12

/-!
# C50: dynamic states are variables

Writing a dynamic state twice is writing it once, writes to different builders commute, and a write that
changes nothing is an invalidation.  "Is" means: no later history of operations can tell the difference.
-/

open Std

namespace Daab

variable {σ : Sig} {Y : Sys σ} {s t : St σ}

/-- `s'` is `s` after invalidating the builders in `X` (and everything that uses them) and giving the
builders in the domain of `D` new dynamic states. -/
structure Wrote (X : Id → Prop) (D : Id → Option (σ.B × σ.S)) (w : σ.W) (s s' : St σ) : Prop where
  w : s'.w = w
  heap : s'.heap = s.heap
  born : s'.born = s.born
  art_none : ∀ x a : Id, X a → Hit (Dep s.c) a x → s'.c.artifacts[x]? = none
  art_keep : ∀ x : Id, (∀ a, X a → ¬ Hit (Dep s.c) a x) → s'.c.artifacts[x]? = s.c.artifacts[x]?
  dep : ∀ u d, Dep s'.c u d ↔ Dep s.c u d ∧ ∀ a, X a → ¬ Hit (Dep s.c) a u
  set : ∀ (x : Id) b d, D x = some (b, d) → s'.c.known[x]? = some b ∧ s'.c.dynStates[x]? = some d
  keep : ∀ x : Id, D x = none → s'.c.known[x]? = s.c.known[x]? ∧ s'.c.dynStates[x]? = s.c.dynStates[x]?
  stray : ∀ x, x ∉ s'.c.known → (x ∈ s'.c.leafs ↔ X x ∨ (x ∈ s.c.leafs ∧ x ∉ s.c.known))

theorem Wrote.trans {X X' : Id → Prop} {D D' : Id → Option (σ.B × σ.S)} {w w' : σ.W} {s s1 s2 : St σ}
    (h : Wrote X D w s s1) (h' : Wrote X' D' w' s1 s2) :
    Wrote (fun a => X a ∨ X' a) (fun a => (D' a).or (D a)) w' s s2 := by
  have hit1 : ∀ {a x}, Hit (Dep s1.c) a x → Hit (Dep s.c) a x := fun hh =>
    Relation.ReflTransGen.mono (fun u d hu => ((h.dep u d).1 hu).1) _ _ hh
  have hit2 : ∀ {a x}, Hit (Dep s.c) a x → (∀ b, X b → ¬ Hit (Dep s.c) b x) → Hit (Dep s1.c) a x := by
    intro a x hh
    induction hh using Relation.ReflTransGen.head_induction_on with
    | refl => intro _; exact Relation.ReflTransGen.refl
    | head h1 _ ih =>
      intro hn
      refine Relation.ReflTransGen.head ((h.dep _ _).2 ⟨h1, hn⟩) (ih ?_)
      intro b hb hb'
      exact hn b hb (Relation.ReflTransGen.head h1 hb')
  constructor
  · rw [h'.w]
  · rw [h'.heap, h.heap]
  · rw [h'.born, h.born]
  · intro x a ha hx
    by_cases hX : ∃ b, X b ∧ Hit (Dep s.c) b x
    · obtain ⟨b, hb, hb'⟩ := hX
      by_cases hX' : ∃ b, X' b ∧ Hit (Dep s1.c) b x
      · obtain ⟨b', hb1, hb2⟩ := hX'
        exact h'.art_none x b' hb1 hb2
      · rw [h'.art_keep x (fun c hc hc' => hX' ⟨c, hc, hc'⟩)]
        exact h.art_none x b hb hb'
    · have hn : ∀ b, X b → ¬ Hit (Dep s.c) b x := fun b hb hb' => hX ⟨b, hb, hb'⟩
      rcases ha with ha | ha
      · exact absurd hx (hn a ha)
      · exact h'.art_none x a ha (hit2 hx hn)
  · intro x hx
    rw [h'.art_keep x (fun a ha hh => hx a (Or.inr ha) (hit1 hh)),
      h.art_keep x (fun a ha => hx a (Or.inl ha))]
  · intro u d
    rw [h'.dep, h.dep]
    constructor
    · rintro ⟨⟨h1, h2⟩, h3⟩
      refine ⟨h1, ?_⟩
      rintro a (ha | ha) hh
      · exact h2 a ha hh
      · exact h3 a ha (hit2 hh h2)
    · rintro ⟨h1, h2⟩
      exact ⟨⟨h1, fun a ha => h2 a (Or.inl ha)⟩, fun a ha hh => h2 a (Or.inr ha) (hit1 hh)⟩
  · intro x b d hx
    cases hD : D' x with
    | some bd =>
      rw [hD] at hx
      cases hx
      exact h'.set x b d hD
    | none =>
      rw [hD] at hx
      rw [(h'.keep x hD).1, (h'.keep x hD).2]
      exact h.set x b d hx
  · intro x hx
    cases hD : D' x with
    | some bd => rw [hD] at hx; cases hx
    | none =>
      rw [hD] at hx
      rw [(h'.keep x hD).1, (h'.keep x hD).2]
      exact h.keep x hx
  · intro x hx
    have hx1 : x ∉ s1.c.known := by
      intro hk
      refine hx ?_
      rw [mem_getElem] at hk ⊢
      cases hD : D' x with
      | some bd => exact ⟨_, (h'.set x bd.1 bd.2 hD).1⟩
      | none => rw [(h'.keep x hD).1]; exact hk
    rw [h'.stray x hx, h.stray x hx1]
    simp only [hx1, not_false_eq_true, and_true]
    constructor
    · rintro (h1 | h1 | h1)
      · exact Or.inl (Or.inr h1)
      · exact Or.inl (Or.inl h1)
      · exact Or.inr h1
    · rintro ((h1 | h1) | h1)
      · exact Or.inr (Or.inl h1)
      · exact Or.inl h1
      · exact Or.inr (Or.inr h1)

theorem Wrote.sim {X X' : Id → Prop} {D D' : Id → Option (σ.B × σ.S)} {w : σ.W} {s s1 s2 : St σ}
    (h1 : Wrote X D w s s1) (h2 : Wrote X' D' w s s2) (hX : ∀ a, X' a ↔ X a) (hD : ∀ a, D' a = D a) :
    Sim (fun _ => False) s1 s2 := by
  obtain rfl : X' = X := funext fun a => propext (hX a)
  obtain rfl : D' = D := funext hD
  have hk : ∀ a : Id, s2.c.known[a]? = s1.c.known[a]? ∧ s2.c.dynStates[a]? = s1.c.dynStates[a]? := by
    intro a
    cases hD : D' a with
    | some bd =>
      rw [(h1.set a bd.1 bd.2 hD).1, (h1.set a bd.1 bd.2 hD).2, (h2.set a bd.1 bd.2 hD).1,
        (h2.set a bd.1 bd.2 hD).2]
      exact ⟨rfl, rfl⟩
    | none =>
      rw [(h1.keep a hD).1, (h1.keep a hD).2, (h2.keep a hD).1, (h2.keep a hD).2]
      exact ⟨rfl, rfl⟩
  constructor
  · rw [h1.w, h2.w]
  · rw [h1.heap, h2.heap]
  · rw [h1.born, h2.born]
  · simp
  · simp
  · simp
  · intro a _; exact (hk a).1
  · intro x _
    by_cases hX : ∃ b, X' b ∧ Hit (Dep s.c) b x
    · obtain ⟨b, hb, hb'⟩ := hX
      rw [h1.art_none x b hb hb', h2.art_none x b hb hb']
    · have hn : ∀ b, X' b → ¬ Hit (Dep s.c) b x := fun b hb hb' => hX ⟨b, hb, hb'⟩
      rw [h1.art_keep x hn, h2.art_keep x hn]
  · intro a _; exact (hk a).2
  · intro u d _
    rw [h1.dep, h2.dep]
  · simp
  · intro a ha
    have ha2 : a ∉ s2.c.known := by
      rw [mem_getElem] at ha ⊢
      rw [(hk a).1]; exact ha
    rw [h1.stray a ha, h2.stray a ha2]
  · simp

theorem Wrote.indist {X X' : Id → Prop} {D D' : Id → Option (σ.B × σ.S)} {w : σ.W} {s s1 s2 : St σ}
    (h1 : Wrote X D w s s1) (h2 : Wrote X' D' w s s2) (hX : ∀ a, X' a ↔ X a) (hD : ∀ a, D' a = D a)
    (r1 : Reachable Y s1) (r2 : Reachable Y s2) : Indistinguishable Y s1 s2 :=
  Sim.indist (by simp) r1 r2 (h1.sim h2 hX hD) (h2.sim h1 (fun a => (hX a).symm) (fun a => (hD a).symm))

/-- What `dyn_state_mut` finds: the present state, or a new initial one. -/
def Finds (Y : Sys σ) (s : St σ) (p : Promise σ) (d : σ.S) (w : σ.W) : Prop :=
  (s.c.dynStates[p.id]? = some d ∧ w = s.w) ∨
  (s.c.dynStates[p.id]? = none ∧ Y.init p.b s.w = (w, some d))

theorem knownAt (hi : Inv Y s) {p : Promise σ} (hl : s.live p = true) :
    (makeKnown p s.c).known[p.id]? = some p.b := by
  rw [makeKnown_getElem, if_pos rfl]
  cases hk : s.c.known[p.id]? with
  | none => rfl
  | some b => rw [live_iff] at hl; rw [hi.heapKnown _ _ _ hk hl]; rfl

theorem Forgot.wrote {X : Id → Prop} {s s1 : St σ} (h : Forgot X (fun _ => False) s s1) :
    Wrote X (fun _ => none) s.w s s1 :=
  { h with
    set := by intro x b d hx; cases hx
    keep := fun x _ => ⟨h.known_keep x (by simp), h.dyn_keep x (by simp)⟩ }

theorem ensure_write (hi : Inv Y s) {p : Promise σ} (hl : s.live p = true) :
    (∃ d w s2, Finds Y s p d w ∧ Y.stTy d = Y.sty p.b ∧ ensureDyn Y p s = (s2, .val d) ∧
      ∀ d', Wrote (fun _ => False) (fun a => if a = p.id then some (p.b, d') else none) w s
        (s2.onCache fun c => { c with dynStates := c.dynStates.insert p.id d' }.emit (.setDyn p d'))) ∨
    ((∀ d w, Finds Y s p d w → Y.stTy d ≠ Y.sty p.b) ∧ ∀ s2 d, ensureDyn Y p s ≠ (s2, .val d)) := by
  have key : ∀ (w : σ.W) (m : AMap σ.S) (e : List (Event σ)) (d' : σ.S),
      (∀ x : Id, x ≠ p.id → m[x]? = s.c.dynStates[x]?) →
      Wrote (fun _ => False) (fun a => if a = p.id then some (p.b, d') else none) w s
        { s with w := w, c := { makeKnown p s.c with dynStates := m.insert p.id d', log := e } } := by
    intro w m e d' hm
    constructor
    · rfl
    · rfl
    · rfl
    · intro x a h; exact absurd h id
    · intro x _; simp
    · intro u d; simp [Dep]
    · intro x b d hx
      split at hx
      · next h => subst h; cases hx; exact ⟨knownAt hi hl, by simp⟩
      · cases hx
    · intro x hx
      split at hx
      · cases hx
      · next h =>
        refine ⟨by simp [makeKnown_getElem, h], ?_⟩
        have := hm x h
        simp only
        grind
    · intro x hx
      have ha' : x ∉ s.c.known ∧ x ≠ p.id := by
        simp only [mem_getElem, makeKnown_getElem] at hx
        constructor
        · intro hx'
          refine hx ?_
          obtain ⟨v, hv⟩ := (mem_getElem _ _).1 hx'
          split
          · exact ⟨_, rfl⟩
          · exact ⟨v, hv⟩
        · rintro rfl; simp at hx
      simp only [makeKnown_leafs]
      simp [ha'.1, ha'.2]
  have hdy : (s.onCache (makeKnown p)).c.dynStates = s.c.dynStates := by simp [St.onCache]
  unfold ensureDyn
  simp only [hdy]
  cases hd : s.c.dynStates[p.id]? with
  | some d =>
    have hk : s.c.known[p.id]? = some p.b := by
      obtain ⟨b, hb⟩ := (mem_getElem _ _).1 (hi.dynKnown p.id (by rw [mem_getElem]; exact ⟨d, hd⟩))
      rw [live_iff] at hl
      rw [hb, hi.heapKnown _ _ _ hb hl]
    have hty := hi.dynTy p.id d p.b hd hk
    refine Or.inl ⟨d, s.w, _, Or.inl ⟨hd, rfl⟩, hty, by simp [hty]; rfl, fun d' => ?_⟩
    exact key s.w _ _ d' (fun x _ => by rw [hdy])
  | none =>
    have hw : (s.onCache (makeKnown p)).w = s.w := rfl
    simp only [hw]
    rcases hin : Y.init p.b s.w with ⟨w, _ | d⟩
    · refine Or.inr ⟨?_, ?_⟩
      · rintro d w' (⟨h, _⟩ | ⟨_, h⟩)
        · rw [hd] at h; cases h
        · rw [hin] at h; cases h
      · intro s2 d h; cases h
    · by_cases hty : Y.stTy d = Y.sty p.b
      · refine Or.inl ⟨d, w, _, Or.inr ⟨hd, hin⟩, hty, by simp only [hty, if_true]; rfl, fun d' => ?_⟩
        exact key w _ _ d' (fun x hx => by
          have : ¬ p.id = x := fun h => hx h.symm
          simp [Cache.emit, ExtTreeMap.getElem?_insert, this])
      · refine Or.inr ⟨?_, ?_⟩
        · rintro d' w' (⟨h, _⟩ | ⟨_, h⟩)
          · rw [hd] at h; cases h
          · rw [hin] at h; cases h; exact hty
        · intro s2 d'; simp [hty]

theorem wrote_dynStateMut (hi : Inv Y s) {p : Promise σ} (hl : s.live p = true) (ord : HashOrder)
    (f : σ.S → σ.S) (n : Nat) :
    (∃ d w, Finds Y s p d w ∧ Y.stTy d = Y.sty p.b ∧
      ((Y.stTy (f d) = Y.sty p.b ∧ (step Y n ord s (.dynStateMut p f)).2 = .val (.state d) ∧
        Wrote (· = p.id) (fun a => if a = p.id then some (p.b, f d) else none) w s
          (step Y n ord s (.dynStateMut p f)).1) ∨
       (Y.stTy (f d) ≠ Y.sty p.b ∧ (step Y n ord s (.dynStateMut p f)).2 = .stuck))) ∨
    ((∀ d w, Finds Y s p d w → Y.stTy d ≠ Y.sty p.b) ∧
      ∀ d, (step Y n ord s (.dynStateMut p f)).2 ≠ .val (.state d)) := by
  have hstep : step Y n ord s (.dynStateMut p f) =
      ((dynStateMut Y ord p f s).1, (dynStateMut Y ord p f s).2.map .state) := by
    simp [step, Op.promise?, hl, exec]
  have hF := (forgot_invalidate hi ord p).wrote
  obtain ⟨c, e, d0⟩ := invalidate_spec hi ord p
  have hi1 := hi.invalidated d0
  rw [hstep]
  unfold dynStateMut
  rw [e] at hF ⊢
  simp only at hF ⊢
  have hfin : ∀ d w, Finds Y { s with c := c.emit (.invalidate p) } p d w ↔ Finds Y s p d w := by
    intro d w
    have h1 := d0.dynStates
    unfold Finds
    simp only [Cache.emit, h1]
  rcases ensure_write hi1 (p := p) hl with ⟨d, w, s2, h1, h2, h3, h4⟩ | ⟨h1, h2⟩
  · left
    refine ⟨d, w, (hfin d w).1 h1, h2, ?_⟩
    rw [h3]
    simp only
    by_cases hty : Y.stTy (f d) = Y.sty p.b
    · left
      rw [if_pos hty]
      refine ⟨hty, rfl, ?_⟩
      have := hF.trans (h4 (f d))
      simpa using this
    · right
      rw [if_neg hty]
      exact ⟨hty, rfl⟩
  · right
    refine ⟨fun d w hh => h1 d w ((hfin d w).2 hh), ?_⟩
    intro d
    generalize hx : ensureDyn Y p { s with c := c.emit (.invalidate p) } = x at h2
    obtain ⟨s2, r⟩ := x
    cases r with
    | val d' => exact absurd rfl (h2 s2 d')
    | panic k => simp [Res.map]
    | stuck => simp [Res.map]
    | overflow => simp [Res.map]

theorem Finds.unique {p : Promise σ} {d d' : σ.S} {w w' : σ.W} (h : Finds Y s p d w)
    (h' : Finds Y s p d' w') : d' = d ∧ w' = w := by
  rcases h with ⟨h1, h2⟩ | ⟨h1, h2⟩ <;> rcases h' with ⟨h3, h4⟩ | ⟨h3, h4⟩
  · rw [h1] at h3; cases h3; exact ⟨rfl, by rw [h2, h4]⟩
  · rw [h1] at h3; cases h3
  · rw [h1] at h3; cases h3
  · rw [h2] at h4; cases h4; exact ⟨rfl, rfl⟩

theorem wrote_of_val (hi : Inv Y s) {p : Promise σ} (hl : s.live p = true) {ord : HashOrder}
    {f : σ.S → σ.S} {n : Nat} {d : σ.S} (hs : (step Y n ord s (.dynStateMut p f)).2 = .val (.state d)) :
    Y.stTy d = Y.sty p.b ∧ Y.stTy (f d) = Y.sty p.b ∧ ∃ w, Finds Y s p d w ∧
      Wrote (· = p.id) (fun a => if a = p.id then some (p.b, f d) else none) w s
        (step Y n ord s (.dynStateMut p f)).1 := by
  rcases wrote_dynStateMut hi hl ord f n with ⟨d', w, h1, h2, h3⟩ | ⟨_, h⟩
  · rcases h3 with ⟨h3, h4, h5⟩ | ⟨_, h4⟩
    · rw [hs] at h4
      cases h4
      exact ⟨h2, h3, w, h1, h5⟩
    · rw [hs] at h4; cases h4
  · exact absurd hs (h d)

theorem val_of_finds (hi : Inv Y s) {p : Promise σ} (hl : s.live p = true) (ord : HashOrder)
    {f : σ.S → σ.S} (n : Nat) {d : σ.S} {w : σ.W} (hf : Finds Y s p d w) (hd : Y.stTy d = Y.sty p.b)
    (ht : Y.stTy (f d) = Y.sty p.b) :
    (step Y n ord s (.dynStateMut p f)).2 = .val (.state d) := by
  rcases wrote_dynStateMut hi hl ord f n with ⟨d', w', h1, h2, h3⟩ | ⟨h, _⟩
  · obtain ⟨rfl, rfl⟩ := hf.unique h1
    rcases h3 with ⟨h3, h4, h5⟩ | ⟨h3, h4⟩
    · exact h4
    · exact absurd ht h3
  · exact absurd hd (h d w hf)

/-! ## The theorems -/

/-- **C50** Two writes to the dynamic state of one builder are one write: `dyn_state_mut(p)` writing `f` and
again `dyn_state_mut(p)` writing `g` hand out `d` and then `f d`; a single `dyn_state_mut(p)` writing
`g ∘ f` hands out `d`, and afterwards nobody can tell the difference. -/
theorem C50_two_writes (h : Reachable Y s) {p : Promise σ} (hl : s.live p = true) {f g : σ.S → σ.S}
    {n n' m : Nat} {ord ord' ord2 : HashOrder} {d e : σ.S}
    (h1 : (step Y n ord s (.dynStateMut p f)).2 = .val (.state d))
    (h2 : (step Y n' ord' (step Y n ord s (.dynStateMut p f)).1 (.dynStateMut p g)).2 = .val (.state e)) :
    e = f d ∧ (step Y m ord2 s (.dynStateMut p (g ∘ f))).2 = .val (.state d) ∧
    Indistinguishable Y (step Y n' ord' (step Y n ord s (.dynStateMut p f)).1 (.dynStateMut p g)).1
      (step Y m ord2 s (.dynStateMut p (g ∘ f))).1 := by
  have r1 := Reachable.step n ord (.dynStateMut p f) h (by rw [h1]; trivial)
  have r2 := Reachable.step n' ord' (.dynStateMut p g) r1 (by rw [h2]; trivial)
  obtain ⟨t1, t2, w, f1, w1⟩ := wrote_of_val h.inv hl h1
  have hl1 : (step Y n ord s (.dynStateMut p f)).1.live p = true := by
    rw [live_iff, w1.heap, ← live_iff]; exact hl
  obtain ⟨t3, t4, w', f2, w2⟩ := wrote_of_val r1.inv hl1 h2
  have hst := (w1.set p.id p.b (f d) (by simp)).2
  obtain ⟨rfl, rfl⟩ : e = f d ∧ w' = w := by
    rcases f2 with ⟨h3, h4⟩ | ⟨h3, _⟩
    · rw [hst] at h3; cases h3; exact ⟨rfl, by rw [h4, w1.w]⟩
    · rw [hst] at h3; cases h3
  have h3 : (step Y m ord2 s (.dynStateMut p (g ∘ f))).2 = .val (.state d) :=
    val_of_finds h.inv hl ord2 m f1 t1 t4
  obtain ⟨_, _, w', f3, w3⟩ := wrote_of_val h.inv hl h3
  obtain ⟨_, rfl⟩ := f1.unique f3
  refine ⟨rfl, h3, (w1.trans w2).indist w3 (by simp) ?_ r2 (.step m ord2 _ h (by rw [h3]; trivial))⟩
  intro a
  by_cases ha : a = p.id <;> simp [ha]

/-- The hypotheses are met, in a state in which the write invalidates three artifacts. -/
example : Reachable Demo.Y Demo.s1 ∧ Demo.s1.live (Demo.P 0) = true ∧
    (step Demo.Y 9 Demo.ord Demo.s1 (.dynStateMut (Demo.P 0) (fun d => d + 1))).2 = .val (.state (5 : Nat)) ∧
    (step Demo.Y 9 Demo.ord (step Demo.Y 9 Demo.ord Demo.s1 (.dynStateMut (Demo.P 0) (fun d => d + 1))).1
      (.dynStateMut (Demo.P 0) (fun d => 2 * d))).2 = .val (.state (6 : Nat)) ∧
    (step Demo.Y 9 Demo.ord (step Demo.Y 9 Demo.ord Demo.s1 (.dynStateMut (Demo.P 0)
      (fun d => 2 * (d + 1)))).1 (.get .bin (Demo.P 2))).2 = .val (.art (.ok (124 : Nat))) := by
  refine ⟨Demo.reach1, by decide, rfl, rfl, rfl⟩

/-- **C50** Writes to the dynamic states of two different builders that have states commute: in either order
they hand out the same states, and afterwards nobody can tell in which order they happened. -/
theorem C50_writes_commute (h : Reachable Y s) {p q : Promise σ} (hp : s.live p = true)
    (hq : s.live q = true) (hne : p.id ≠ q.id) {dp dq : σ.S} (hsp : HasState s p.id dp)
    (hsq : HasState s q.id dq) {f g : σ.S → σ.S} {n m : Nat} {ord ord' : HashOrder} {d e : σ.S}
    (h1 : (step Y n ord s (.dynStateMut p f)).2 = .val (.state d))
    (h2 : (step Y m ord' (step Y n ord s (.dynStateMut p f)).1 (.dynStateMut q g)).2 = .val (.state e)) :
    d = dp ∧ e = dq ∧ (step Y m ord' s (.dynStateMut q g)).2 = .val (.state e) ∧
    (step Y n ord (step Y m ord' s (.dynStateMut q g)).1 (.dynStateMut p f)).2 = .val (.state d) ∧
    Indistinguishable Y (step Y m ord' (step Y n ord s (.dynStateMut p f)).1 (.dynStateMut q g)).1
      (step Y n ord (step Y m ord' s (.dynStateMut q g)).1 (.dynStateMut p f)).1 := by
  have hne' : q.id ≠ p.id := fun h => hne h.symm
  have r1 := Reachable.step n ord (.dynStateMut p f) h (by rw [h1]; trivial)
  have r2 := Reachable.step m ord' (.dynStateMut q g) r1 (by rw [h2]; trivial)
  obtain ⟨t1, t2, w, f1, w1⟩ := wrote_of_val h.inv hp h1
  have hq1 : (step Y n ord s (.dynStateMut p f)).1.live q = true := by
    rw [live_iff, w1.heap, ← live_iff]; exact hq
  obtain ⟨t3, t4, w', f2, w2⟩ := wrote_of_val r1.inv hq1 h2
  obtain ⟨rfl, rfl⟩ := f1.unique (Or.inl ⟨hsp, rfl⟩)
  have hsq1 : (step Y n ord s (.dynStateMut p f)).1.c.dynStates[q.id]? = some dq := by
    rw [(w1.keep q.id (by simp [hne'])).2]; exact hsq
  obtain ⟨rfl, rfl⟩ := f2.unique (Or.inl ⟨hsq1, rfl⟩)
  -- the other order
  have h3 : (step Y m ord' s (.dynStateMut q g)).2 = .val (.state dq) :=
    val_of_finds h.inv hq ord' m (Or.inl ⟨hsq, rfl⟩) t3 t4
  have r3 := Reachable.step m ord' (.dynStateMut q g) h (by rw [h3]; trivial)
  obtain ⟨_, _, w3, f3, v1⟩ := wrote_of_val h.inv hq h3
  have hp3 : (step Y m ord' s (.dynStateMut q g)).1.live p = true := by
    rw [live_iff, v1.heap, ← live_iff]; exact hp
  have hsp3 : (step Y m ord' s (.dynStateMut q g)).1.c.dynStates[p.id]? = some dp := by
    rw [(v1.keep p.id (by simp [hne])).2]; exact hsp
  have h4 : (step Y n ord (step Y m ord' s (.dynStateMut q g)).1 (.dynStateMut p f)).2 = .val (.state dp) :=
    val_of_finds r3.inv hp3 ord n (Or.inl ⟨hsp3, rfl⟩) t1 t2
  have r4 := Reachable.step n ord (.dynStateMut p f) r3 (by rw [h4]; trivial)
  obtain ⟨_, _, w4, f4, v2⟩ := wrote_of_val r3.inv hp3 h4
  obtain ⟨_, rfl⟩ := f3.unique (Or.inl ⟨hsq, rfl⟩)
  obtain ⟨_, rfl⟩ := f4.unique (Or.inl ⟨hsp3, rfl⟩)
  have ew : (step Y m ord' s (.dynStateMut q g)).1.w = (step Y n ord s (.dynStateMut p f)).1.w := by
    rw [v1.w, w1.w]
  have v := v1.trans v2
  rw [ew] at v
  refine ⟨rfl, rfl, h3, h4, (w1.trans w2).indist v ?_ ?_ r2 r4⟩
  · intro a; exact or_comm
  · intro a
    by_cases ha : a = p.id
    · have : a ≠ q.id := by rw [ha]; exact hne
      simp [ha, hne]
    · simp [ha]

/-- The hypotheses are met: builder 1 uses builder 0, and both have states. -/
example : (10 : Nat) ≠ 11 ∧ HasState Demo.s1 10 (5 : Nat) ∧ HasState Demo.s1 11 (1 : Nat) ∧
    (step Demo.Y 9 Demo.ord Demo.s1 (.dynStateMut (Demo.P 0) (fun d => d + 1))).2 = .val (.state (5 : Nat)) ∧
    (step Demo.Y 9 Demo.ord (step Demo.Y 9 Demo.ord Demo.s1 (.dynStateMut (Demo.P 0) (fun d => d + 1))).1
      (.dynStateMut (Demo.P 1) (fun d => d + 3))).2 = .val (.state (1 : Nat)) := by
  refine ⟨by decide, rfl, rfl, rfl, rfl⟩

/-- **C50** `dyn_state_mut(p)` on a builder that has a state, with a write that changes nothing, is
`invalidate(p)`. -/
theorem C50_no_write (h : Reachable Y s) {p : Promise σ} (hl : s.live p = true) {d : σ.S}
    (hs : HasState s p.id d) {f : σ.S → σ.S} (hf : f d = d) (n m : Nat) (ord ord' : HashOrder) :
    (step Y n ord s (.dynStateMut p f)).2 = .val (.state d) ∧
    Indistinguishable Y (step Y n ord s (.dynStateMut p f)).1 (step Y m ord' s (.invalidate p)).1 := by
  have hk : s.c.known[p.id]? = some p.b := by
    have hm := h.inv.dynKnown p.id (by rw [mem_getElem]; exact ⟨d, hs⟩)
    obtain ⟨b, hb⟩ := (mem_getElem _ _).1 hm
    rw [live_iff] at hl
    rw [hb, h.inv.heapKnown _ _ _ hb hl]
  have ht := h.inv.dynTy p.id d p.b hs hk
  have h1 : (step Y n ord s (.dynStateMut p f)).2 = .val (.state d) :=
    val_of_finds h.inv hl ord n (Or.inl ⟨hs, rfl⟩) ht (by rw [hf]; exact ht)
  obtain ⟨_, _, w, f1, w1⟩ := wrote_of_val h.inv hl h1
  obtain ⟨_, rfl⟩ := f1.unique (Or.inl ⟨hs, rfl⟩)
  have hst : step Y m ord' s (.invalidate p) =
      ({ s with c := (invalidate Y ord' p s.c).1 }, (invalidate Y ord' p s.c).2.res .unit) := by
    simp [step, Op.promise?, hl, exec]
  have w2 := (forgot_invalidate h.inv ord' p).wrote
  refine ⟨h1, ?_⟩
  have r1 := Reachable.step n ord (.dynStateMut p f) h (by rw [h1]; trivial)
  have r2 : Reachable Y (step Y m ord' s (.invalidate p)).1 := by
    refine Reachable.step m ord' (.invalidate p) h ?_
    obtain ⟨c, e, _⟩ := invalidate_spec h.inv ord' p
    rw [hst, e]; trivial
  have w3 : Wrote (· = p.id) (fun a => if a = p.id then some (p.b, f d) else none) s.w s
      (step Y m ord' s (.invalidate p)).1 := by
    rw [hst]
    refine { w2 with set := ?_, keep := fun x _ => w2.keep x rfl }
    intro x b e hx
    split at hx
    · next hxp =>
      subst hxp
      cases hx
      rw [(w2.keep p.id rfl).1, (w2.keep p.id rfl).2]
      exact ⟨hk, by rw [hf]; exact hs⟩
    · cases hx
  exact w1.indist w3 (fun _ => Iff.rfl) (fun _ => rfl) r1 r2

/-- Builder 0 has the state 5, and is used by others. -/
example : (step Demo.Y 9 Demo.ord Demo.s1 (.dynStateMut (Demo.P 0) (fun d => max d (3 : Nat)))).2 =
      .val (.state (5 : Nat)) ∧
    Indistinguishable Demo.Y (step Demo.Y 9 Demo.ord Demo.s1 (.dynStateMut (Demo.P 0) (fun d => max d (3 : Nat)))).1
      (step Demo.Y 3 Demo.ord' Demo.s1 (.invalidate (Demo.P 0))).1 :=
  C50_no_write Demo.reach1 (by decide) (d := (5 : Nat)) (by rfl) (by decide) 9 3 Demo.ord Demo.ord'

end Daab
