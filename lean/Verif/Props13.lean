import Verif.Props12

/-!
# C20, C22: what the garbage collection never collects, and the cache after the panic of mutable access
-/

open Std

namespace Daab

variable {σ : Sig} {Y : Sys σ} {s : St σ}

/-! ## C20 -/

/-- **C20** (limit) A builder that uses itself, directly or through others, is never collected, however
often the garbage is collected, even if nobody references it or its users any more: its artifact and its
dynamic state stay. -/
theorem C20_cycles_stay (h : Reachable Y s) {a : Id} (hc : StrictHit (UsesNow s) a a)
    (l : List (Nat × HashOrder)) :
    let s' := (play Y (l.map fun x => (x.1, x.2, .gc)) s).1
    Known s' a ∧ (∀ v, Cached s' a v ↔ Cached s a v) ∧ (∀ d, HasState s' a d ↔ HasState s a d) ∧
    StrictHit (UsesNow s') a a := by
  induction l generalizing s with
  | nil =>
    refine ⟨?_, fun _ => Iff.rfl, fun _ => Iff.rfl, hc⟩
    obtain ⟨y, hy, _⟩ := Relation.TransGen.head'_iff.1 hc
    rw [usesNow_iff] at hy
    exact h.inv.depU _ _ hy
  | cons x l ih =>
    obtain ⟨n, o⟩ := x
    simp only [List.map_cons, play]
    have hr := Reachable.step n o .gc h (step_gc_goesOn h n o)
    rcases step_gc h n o with ⟨e, _⟩ | ⟨_, c', e, _⟩
    · rw [e] at hr ⊢
      exact ih h hc
    · obtain ⟨c1, c2, c3, c4⟩ := C20_gc_collects h e
      rw [e] at hr ⊢
      simp only at hr ⊢ c1 c2 c3 c4
      generalize ({ s with c := c' } : St σ) = s1 at *
      -- whatever is used is kept
      have keep : ∀ x, StrictHit (UsesNow s) x x → ¬ (Known s x ∧ Dead s x ∧ ∀ u, ¬ UsesNow s u x) := by
        rintro x hx ⟨_, _, h3⟩
        obtain ⟨y, _, hy⟩ := Relation.TransGen.tail'_iff.1 hx
        exact h3 y hy
      have hc' : StrictHit (UsesNow s1) a a := by
        -- every builder on the cycle is used
        have aux : ∀ x, Relation.ReflTransGen (UsesNow s) x a → Relation.ReflTransGen (UsesNow s) a x →
            Relation.ReflTransGen (UsesNow s1) x a := by
          intro x hx
          induction hx using Relation.ReflTransGen.head_induction_on with
          | refl => intro _; exact Relation.ReflTransGen.refl
          | @head x y h1 h2 ih =>
            intro hax
            refine Relation.ReflTransGen.head ((c4 x y).2 ⟨h1, ?_⟩) (ih (hax.tail h1))
            apply keep
            exact Relation.TransGen.head' h1 (h2.trans hax)
        obtain ⟨y, hy, hya⟩ := Relation.TransGen.head'_iff.1 hc
        exact Relation.TransGen.head' ((c4 a y).2 ⟨hy, keep a hc⟩)
          (aux y hya (Relation.ReflTransGen.single hy))
      obtain ⟨i1, i2, i3, i4⟩ := ih hr hc'
      refine ⟨i1, fun v => (i2 v).trans ?_, fun d => (i3 d).trans ?_, i4⟩
      · rw [c2]; simp only [keep a hc, not_false_eq_true, and_true]
      · rw [c3]; simp only [keep a hc, not_false_eq_true, and_true]

/-- The hypotheses are met: builder 9 resolved itself while it was built, then was dropped by its
owner. -/
example : let s := Demo.after [.get .bin (Demo.P 9), .free 19]
    Reachable Demo.Y s ∧ StrictHit (UsesNow s) 19 19 ∧ Dead s 19 ∧ Cached s 19 (9 : Nat) :=
  ⟨Demo.reach _ (by decide), Relation.TransGen.single ⟨_, rfl, by decide⟩,
    by rintro ⟨_, b⟩ rfl; rfl, by unfold Cached; decide⟩

/-! ## C22 -/

/-- **C22** (consequence of the panic) After the panic of `lookup_mut` the cache serves outdated
artifacts: there is a system of builders and a history in which `lookup_mut(p)` panics, then
`dyn_state_mut(p)` changes `p`'s dynamic state, and then `get(q)`, for a builder `q` which used `p`,
still returns the artifact computed from the old state; without the `lookup_mut` it returns another
artifact. -/
theorem C22_stale_after_panic : ∃ (σ : Sig) (Y : Sys σ) (s : St σ) (p q : Promise σ)
    (f : σ.V → σ.V) (g : σ.S → σ.S) (n : Nat) (ord : HashOrder) (old new : σ.V),
    Reachable Y s ∧ UsesNow s q.id p.id ∧ Cached s q.id old ∧ old ≠ new ∧
    (play Y [(n, ord, .dynStateMut p g), (n, ord, .get .bin q)] s).2.getLast? =
      some (.val (.art (.ok new))) ∧
    (step Y n ord s (.lookupMut p f)).2 = .panic .noCounterpart ∧
    (play Y [(n, ord, .dynStateMut p g), (n, ord, .get .bin q)] (step Y n ord s (.lookupMut p f)).1).2.getLast? =
      some (.val (.art (.ok old))) :=
  ⟨Demo.sig, Demo.Y, Demo.s1, Demo.P 0, Demo.P 2, id, fun _ => (50 : Nat), 9, Demo.ord, (110 : Nat),
    (200 : Nat), Demo.reach1, ⟨_, rfl, by decide⟩, by unfold Cached; decide, by decide, rfl, rfl, rfl⟩

/-- Only ids satisfying `Q` occur in the recorded uses. -/
def OnlyIds (Q : Id → Prop) (c : Cache σ) : Prop :=
  (∀ (d : Id) set, c.dependents[d]? = some set → ∀ x, x ∈ set → Q x) ∧
  (∀ (u : Id) set, c.dependencies[u]? = some set → ∀ x, x ∈ set → Q x)

/-- What the invalidation loops leave alone even if they panic. -/
structure Framed (Q : Id → Prop) (c c' : Cache σ) : Prop where
  known : c'.known = c.known
  dyn : c'.dynStates = c.dynStates
  grow : ∀ x, x ∈ c.leafs → x ∈ c'.leafs
  only : ∀ x, x ∈ c'.leafs → x ∈ c.leafs ∨ Q x
  ids : OnlyIds Q c'

theorem Framed.refl {Q : Id → Prop} {c : Cache σ} (h : OnlyIds Q c) : Framed Q c c :=
  ⟨rfl, rfl, fun _ h => h, fun _ h => Or.inl h, h⟩

theorem Framed.trans {Q : Id → Prop} {c c1 c2 : Cache σ} (h : Framed Q c c1) (h' : Framed Q c1 c2) :
    Framed Q c c2 :=
  ⟨h'.known.trans h.known, h'.dyn.trans h.dyn, fun x hx => h'.grow x (h.grow x hx), fun x hx => by
    rcases h'.only x hx with h1 | h1
    · exact h.only x h1
    · exact Or.inr h1, h'.ids⟩

theorem unlink_framed {Q : Id → Prop} (P : IdSet) (bid : Id) (l : List Id) {c : Cache σ}
    (hc : OnlyIds Q c) (hl : ∀ x ∈ l, Q x) : Framed Q c (unlink Y P bid l c).1 := by
  induction l generalizing c with
  | nil => exact Framed.refl hc
  | cons dep rest ih =>
    have hrest : ∀ x ∈ rest, Q x := fun x hx => hl x (by simp [hx])
    rw [unlink]
    split
    · exact ih hc hrest
    · split
      · exact Framed.refl hc
      · next set hset =>
        have h1 : Framed Q c { c with dependents := c.dependents.insert dep (set.erase bid) } := by
          refine ⟨rfl, rfl, fun _ h => h, fun _ h => Or.inl h, ?_, hc.2⟩
          intro d st hd x hx
          have := hc.1
          have h2 := hc.1 dep set hset
          simp only at hd
          grind
        simp only
        split
        · exact h1
        · split
          · have h2 : Framed Q { c with dependents := c.dependents.insert dep (set.erase bid) }
                { c with
                  dependents := c.dependents.insert dep (set.erase bid)
                  leafs := c.leafs.insert dep } := by
              have hq := hl dep (by simp)
              refine ⟨rfl, rfl, ?_, ?_, h1.ids⟩
              · intro x hx; simp only at hx ⊢; grind
              · intro x hx; simp only at hx ⊢; grind
            exact (h1.trans h2).trans (ih h2.ids hrest)
          · exact h1.trans (ih h1.ids hrest)

theorem invLoop_framed {Q : Id → Prop} (ord : HashOrder) (root : Id) (n : Nat) (P : IdSet)
    (pending : List Id) {c : Cache σ} (hc : OnlyIds Q c) (hp : ∀ x ∈ pending, Q x) :
    Framed Q c (invLoop Y ord root n P pending c).1 := by
  induction n generalizing P pending c with
  | zero => cases pending <;> exact Framed.refl hc
  | succ n ih =>
    cases pending with
    | nil => exact Framed.refl hc
    | cons bid pending =>
      rw [invLoop]
      have hrest : ∀ x ∈ pending, Q x := fun x hx => hp x (by simp [hx])
      have h1 : Framed Q c (popDependents ord ⟨0, root, n⟩ bid pending c).2 ∧
          ∀ x ∈ (popDependents ord ⟨0, root, n⟩ bid pending c).1, Q x := by
        unfold popDependents
        split
        · next set hset =>
          refine ⟨⟨rfl, rfl, fun _ h => h, fun _ h => Or.inl h, ?_, hc.2⟩, ?_⟩
          · intro d st hd x hx
            have := hc.1
            simp only at hd
            grind
          · intro x hx
            rw [mem_foldl_cons, (ord.perm _ _).mem_iff, ExtTreeSet.mem_toList] at hx
            rcases hx with hx | hx
            · exact hc.1 bid set hset x hx
            · exact hrest x hx
        · exact ⟨Framed.refl hc, hrest⟩
      generalize popDependents ord ⟨0, root, n⟩ bid pending c = r at h1
      obtain ⟨pend, c1⟩ := r
      simp only at h1 ⊢
      have h2 : Framed Q c1 (popDependencies Y ord ⟨1, root, n⟩ (P.insert bid) bid c1).1 := by
        unfold popDependencies
        split
        · next set hset =>
          have h3 : Framed Q c1 { c1 with dependencies := c1.dependencies.erase bid } := by
            refine ⟨rfl, rfl, fun _ h => h, fun _ h => Or.inl h, h1.1.ids.1, ?_⟩
            intro d st hd x hx
            have := h1.1.ids.2
            simp only at hd
            grind
          refine h3.trans (unlink_framed _ _ _ h3.ids ?_)
          intro x hx
          rw [(ord.perm _ _).mem_iff, ExtTreeSet.mem_toList] at hx
          exact h1.1.ids.2 bid set hset x hx
        · exact Framed.refl h1.1.ids
      generalize popDependencies Y ord ⟨1, root, n⟩ (P.insert bid) bid c1 = q at h2
      obtain ⟨c2, e⟩ := q
      cases e with
      | done =>
        simp only at h2 ⊢
        have h3 : Framed Q c2 { c2 with
            leafs := c2.leafs.insert bid
            artifacts := c2.artifacts.erase bid } := by
          have hq := hp bid (by simp)
          refine ⟨rfl, rfl, ?_, ?_, h2.ids⟩
          · intro x hx; simp only at hx ⊢; grind
          · intro x hx; simp only at hx ⊢; grind
        exact ((h1.1.trans h2).trans h3).trans (ih _ _ h3.ids h1.2)
      | panic k => exact h1.1.trans h2
      | outOfFuel => exact h1.1.trans h2

theorem invEach_framed {Q : Id → Prop} (ord : HashOrder) (l : List Id) {c : Cache σ} (hc : OnlyIds Q c)
    (hl : ∀ x ∈ l, Q x) : Framed Q c (invEach Y ord l c).1 := by
  induction l generalizing c with
  | nil => exact Framed.refl hc
  | cons a l ih =>
    rw [invEach]
    have h1 : Framed Q c (invalidateById Y ord a c).1 := by
      unfold invalidateById
      exact invLoop_framed _ _ _ _ _ hc (by intro x hx; simp only [List.mem_singleton] at hx; subst hx; exact hl x (by simp))
    generalize invalidateById Y ord a c = r at h1
    obtain ⟨c1, e⟩ := r
    cases e with
    | done => exact h1.trans (ih h1.ids fun x hx => hl x (by simp [hx]))
    | panic k => exact h1
    | outOfFuel => exact h1

theorem mutPanic_framed (hi : Inv Y s) (ord : HashOrder) {a : Id} {c : Cache σ} {k : Panic}
    (h : invalidateDependents Y ord a s.c = (c, .panic k)) : Framed (· ∈ s.c.known) s.c c := by
  have hids : OnlyIds (· ∈ s.c.known) s.c := by
    refine ⟨?_, ?_⟩
    · intro d set hd x hx
      exact hi.depU x d (mem_setAt.2 ⟨set, hd, hx⟩)
    · intro u set hu x hx
      refine hi.depD u x ?_
      exact (hi.sync u x).2 (mem_setAt.2 ⟨set, hu, hx⟩)
  cases hset : s.c.dependents[a]? with
  | none =>
    simp only [invalidateDependents, hset] at h
    cases h
  | some set =>
    have h1 : Framed (· ∈ s.c.known) s.c { s.c with dependents := s.c.dependents.erase a } := by
      refine ⟨rfl, rfl, fun _ h => h, fun _ h => Or.inl h, ?_, hids.2⟩
      intro d st hd x hx
      have := hids.1
      simp only at hd
      grind
    have h2 := invEach_framed (Y := Y) ord (ord.f ⟨2, a, 0⟩ set.toList) h1.ids (by
      intro x hx
      rw [(ord.perm _ _).mem_iff, ExtTreeSet.mem_toList] at hx
      exact hids.1 a set hset x hx)
    simp only [invalidateDependents, hset] at h
    generalize invEach Y ord (ord.f ⟨2, a, 0⟩ set.toList) { s.c with dependents := s.c.dependents.erase a } = r at h h2
    obtain ⟨c', e⟩ := r
    cases e with
    | done => cases h
    | panic k' => cases h; exact h1.trans h2
    | outOfFuel => cases h

/-- **C22** (recovery) After the panic of mutable access, `clear_artifacts` or `clear_all` brings the
cache in exactly the state in which it would be without the mutable access (except for what was reported
to the doctor).  So a program that catches the panic can go on if it clears the cache first. -/
theorem C22_clearing_recovers (h : Reachable Y s) {p : Promise σ} {f : σ.V → σ.V} {n n' : Nat}
    {ord ord' : HashOrder} {op : Op σ} (hop : op = .lookupMut p f ∨ op = .getMut p f)
    (hp : (step Y n ord s op).2 = .panic .noCounterpart) (clear : Op σ)
    (hcl : clear = .clearArtifacts ∨ clear = .clearAll) :
    SameButLog (step Y n' ord' (step Y n ord s op).1 clear).1 (step Y n' ord' s clear).1 := by
  have hl : s.live p = true := by
    by_contra hl
    rcases hop with rfl | rfl <;> simp [step, Op.promise?, hl] at hp
  have key : ∃ c, (step Y n ord s op).1 = { s with c := c } ∧
      invalidateDependents Y ord p.id s.c = (c, .panic .noCounterpart) := by
    have lm : ∃ c, lookupMut Y ord p s.c = (c, .panic .noCounterpart) ∧
        invalidateDependents Y ord p.id s.c = (c, .panic .noCounterpart) := by
      obtain ⟨x, hx1, hx2⟩ : ∃ x, x ≠ p.id ∧ UsesNow s x p.id := by
        have := C22_mut_panics_iff h hl n ord f
        rcases hop with rfl | rfl
        · exact this.1.1 hp
        · exact this.2.1 hp
      rw [usesNow_iff] at hx2
      rcases h.inv.invalidateDependents ord p.id with ⟨c, e, _⟩ | ⟨c, _, hall, _⟩
      · exact ⟨c, by simp [lookupMut, e], e⟩
      · exact absurd (hall x hx2) hx1
    obtain ⟨c, e1, e2⟩ := lm
    refine ⟨c, ?_, e2⟩
    rcases hop with rfl | rfl
    · simp [step, Op.promise?, hl, exec, e1]
    · simp [step, Op.promise?, hl, exec, getMut, e1]
  obtain ⟨c, e, hd⟩ := key
  have hf := mutPanic_framed h.inv ord hd
  rw [e]
  rcases hcl with rfl | rfl
  · have hle : (c.known.keys.foldl (fun l a => l.insert a) c.leafs) =
        s.c.known.keys.foldl (fun l a => l.insert a) s.c.leafs := by
      ext x
      rw [mem_foldl_insert, mem_foldl_insert, hf.known, ExtTreeMap.mem_keys]
      have h1 := hf.grow x
      have h2 := hf.only x
      grind
    rw [hf.known] at hle
    simp only [step, Op.promise?, exec, SameButLog, St.onCache, clearArtifacts, Cache.emit, hf.known, hf.dyn, hle]
  · simp only [step, Op.promise?, exec, SameButLog, St.onCache, clearAll, Cache.emit]

/-- The hypotheses are met: builder 0 was used. -/
example : (step Demo.Y 9 Demo.ord Demo.s1 (.lookupMut (Demo.P 0) id)).2 = .panic .noCounterpart := rfl

/-! ## C16 -/

/-- **C16** A builder whose artifact is cached is known, and has a dynamic state. -/
theorem C16_cached_means_known (h : Reachable Y s) {p : Promise σ} (hl : s.live p = true) {v : σ.V}
    (hc : Cached s p.id v) (n : Nat) (ord : HashOrder) :
    (step Y n ord s (.isKnown p)).2 = .val (.bool true) ∧ ∃ d, HasState s p.id d := by
  have h1 := h.inv.artDyn p.id ((mem_getElem _ _).2 ⟨v, hc⟩)
  have h2 := h.inv.dynKnown _ h1
  refine ⟨?_, (mem_getElem _ _).1 h1⟩
  simp only [step, Op.promise?, hl, if_true, exec, isKnown]
  simpa using h2

example : (step Demo.Y 0 Demo.ord Demo.s1 (.isKnown (Demo.P 2))).2 = .val (.bool true) :=
  (C16_cached_means_known Demo.reach1 (p := Demo.P 2) (by decide) (v := (110 : Nat))
    (by unfold Cached; decide) 0 Demo.ord).1

end Daab
