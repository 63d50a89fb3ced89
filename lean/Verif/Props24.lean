import Verif.Anyhow
import Verif.Props13
import Verif.Props22

/-!
# Properties: whatever panics are caught

Statements are about any `Anyhow` state: a program goes on after every panic, also after those that `Reachable` excludes
(the panic of finding 2, and panicking destructors).  What then still holds is that nothing wrong is handed out; what may
not hold any more is that nothing *outdated* is (`C60_stale`, `C22_stale_after_panic`).
-/

open Std

namespace Daab

variable {σ : Sig} {Y : Sys σ} {s s' : St σ}

/-! ## Replaying allocations -/

theorem fresh_id (l : List Nat) : ∃ n, ∀ x ∈ l, x < n := by
  induction l with
  | nil => exact ⟨0, by simp⟩
  | cons a l ih =>
    obtain ⟨n, hn⟩ := ih
    refine ⟨n + a + 1, ?_⟩
    intro x hx
    rcases List.mem_cons.1 hx with h | h
    · subst h; omega
    · have := hn x h; omega

/-- A program can, in a new cache, allocate and free builders to have any given heap. -/
theorem replay_heap (w : σ.W) (heap : AMap σ.B) (hinj : ∀ (a a' : Id) b, heap[a]? = some b → heap[a']? = some b → a = a')
    (l : List σ.B) (hl : l.Nodup) :
    ∃ t : St σ, Reachable Y t ∧ t.c = {} ∧ t.w = w ∧ t.born = l ∧ ∀ (a : Id) b, t.heap[a]? = some b ↔ heap[a]? = some b ∧ b ∈ l := by
  induction l with
  | nil => exact ⟨St.new w, .new w, rfl, rfl, rfl, by simp [St.new]⟩
  | cons b l ih =>
    obtain ⟨hb, hl⟩ := List.nodup_cons.1 hl
    obtain ⟨t, h1, h2, h3, h4, h5⟩ := ih hl
    have go : ∀ a : Id, t.heap[a]? = none → allocB ⟨a, b⟩ t = some { t with heap := t.heap.insert a b, born := b :: l } := by
      intro a ha
      have e1 : t.heap.contains a = false := by simp only [ExtTreeMap.contains_eq_isSome_getElem?, ha]; rfl
      have e2 : t.c.known.contains a = false := by rw [h2]; simp
      simp [allocB, e1, e2, h4, hb]
    have run : ∀ a : Id, t.heap[a]? = none → Reachable Y { t with heap := t.heap.insert a b, born := b :: l } := by
      intro a ha
      have := Reachable.step 0 ⟨fun _ l => l, fun _ l => .refl l⟩ (.alloc ⟨a, b⟩) h1 (by simp [step, Op.promise?, exec, go a ha, Res.goesOn])
      simpa only [step, Op.promise?, exec, go a ha] using this
    by_cases hx : ∃ a : Id, heap[a]? = some b
    · obtain ⟨a, ha⟩ := hx
      have hn : t.heap[a]? = none := by
        cases hc : t.heap[a]? with
        | none => rfl
        | some b' =>
          have := (h5 a b').1 hc
          rw [ha] at this
          obtain ⟨e, hm⟩ := this
          cases e
          exact absurd hm hb
      refine ⟨_, run a hn, h2, h3, rfl, ?_⟩
      intro x b'
      simp only [ExtTreeMap.getElem?_insert]
      split
      · next e =>
        obtain rfl : a = x := by simpa using e
        rw [ha]
        constructor
        · rintro ⟨⟩; exact ⟨rfl, List.mem_cons_self ..⟩
        · exact fun h => h.1
      · next e =>
        have e : a ≠ x := by simpa using e
        rw [h5]
        constructor
        · exact fun h => ⟨h.1, List.mem_cons_of_mem _ h.2⟩
        · rintro ⟨h, hm⟩
          refine ⟨h, ?_⟩
          rcases List.mem_cons.1 hm with rfl | hm
          · exact absurd (hinj _ _ _ ha h) e
          · exact hm
    · obtain ⟨a, ha⟩ := fresh_id t.heap.keys
      have hn : t.heap[a]? = none := by
        cases hc : t.heap[a]? with
        | none => rfl
        | some b' =>
          have : a ∈ t.heap.keys := by simp only [ExtTreeMap.mem_keys]; exact (mem_getElem _ _).2 ⟨b', hc⟩
          exact absurd (ha a this) (Nat.lt_irrefl a)
      have hf := Reachable.step (Y := Y) 0 ⟨fun _ l => l, fun _ l => .refl l⟩ (.free a) (run a hn) trivial
      refine ⟨_, hf, h2, h3, rfl, ?_⟩
      intro x b'
      simp only [step, Op.promise?, exec, freeB]
      have e : ((t.heap.insert a b).erase a)[x]? = t.heap[x]? := by grind
      rw [e, h5]
      constructor
      · exact fun h => ⟨h.1, List.mem_cons_of_mem _ h.2⟩
      · rintro ⟨h, hm⟩
        refine ⟨h, ?_⟩
        rcases List.mem_cons.1 hm with rfl | hm
        · exact absurd ⟨x, h⟩ hx
        · exact hm

/-! ## The property -/

/-- **C65** All that was proved of `Anyhow` states holds in particular in `Reachable` ones. -/
theorem C65_reachable (h : Reachable Y s) : Anyhow Y s := by
  induction h with
  | new w => exact .new w
  | step n ord op _ hg ih => exact .does ih (.went (.plain n ord)) (goesOn_ended hg)
  | hooked D n ord op _ hg ih => exact .does ih (.went (.hooked D n ord)) (goesOn_ended hg)

/-- **C65** Whatever was caught before: an operation can only panic with a panic of the user's code, or, if it runs an
invalidation, with one of the two "no counterpart" panics, or, if it is a garbage collection, with its own two.  No
downcast fails, and the internal assertions of getters and builds hold.  And what does not call builders, ends. -/
theorem C65_panics (h : Anyhow Y s) {op : Op σ} {r : Res (Ans σ)} (hd : Does Y s op s' r) :
    (∀ k, r = .panic k → op.mayPanic k) ∧ (op.builds = false → r ≠ .overflow) :=
  ⟨(h.safe.does hd).panics, (h.safe.does hd).total⟩

/-- **C65** What is cached is handed out, unchanged and without any effect. -/
theorem C65_hit_is_free (h : Anyhow Y s) {p : Promise σ} (hl : s.live p = true) {v : σ.V} (hv : Cached s p.id v)
    (n : Nat) (ord : HashOrder) (how : Access) :
    step Y n ord s (.get how p) = (s, .val (.art (.ok (seen Y how v)))) := by
  rw [step_live rfl hl]
  simp only [exec]
  rw [(getA_okI Y (Safe Y) n).1.hit how p s h.safe hl v hv]
  rfl

/-- **C65** Lookups change nothing, do not fail, and tell what is held. -/
theorem C65_lookups (h : Anyhow Y s) {p : Promise σ} (hl : s.live p = true) (n : Nat) (ord : HashOrder) :
    (∀ how, step Y n ord s (.lookup how p) = (s, .val (.optArt ((s.c.artifacts[p.id]?).map (seen Y how))))) ∧
    step Y n ord s (.getDynState p) = (s, .val (.optState (s.c.dynStates[p.id]?))) := by
  have hi := h.safe
  refine ⟨?_, ?_⟩
  · intro how
    rw [step_live rfl hl]
    simp only [exec, lookupBy_eq hi how hl, Res.map]
  · rw [step_live rfl hl]
    simp only [exec, getDynState]
    cases hd : s.c.dynStates[p.id]? with
    | none => rfl
    | some d =>
      have hk := hi.healthy.dynKnown _ ((mem_getElem _ _).2 ⟨d, hd⟩)
      obtain ⟨b, hb⟩ := (mem_getElem _ _).1 hk
      have hbb := hi.healthy.heapKnown _ _ _ hb (live_iff.1 hl)
      have hk' : isKnown p.id s.c = true := by simpa [isKnown] using hk
      have := hi.healthy.dynTy _ _ _ hd hb
      simp [hk', this, hbb, Res.map]

/-- **C65** A successful `get` leaves its artifact in the cache, and of the right type; an error comes only if nothing was
cached. -/
theorem C65_get (h : Anyhow Y s) {p : Promise σ} {n : Nat} {ord : HashOrder} {how : Access} :
    (∀ w, (step Y n ord s (.get how p)).2 = .val (.art (.ok w)) →
      ∃ v, Cached (step Y n ord s (.get how p)).1 p.id v ∧ w = seen Y how v ∧ Y.artTy v = Y.vty p.b) ∧
    ∀ e, (step Y n ord s (.get how p)).2 = .val (.art (.error e)) → Uncached s p.id := by
  cases hl : s.live p with
  | false => simp [step, Op.promise?, hl]
  | true =>
    refine ⟨fun w hv => ?_, fun e hv => ?_⟩
    · rw [step_live rfl hl] at hv ⊢
      simp only [exec] at hv ⊢
      have hok := (getA_okI Y (Safe Y) n).1.ok how p s h.safe
      generalize getA Y n how p s = x at *
      obtain ⟨s', r⟩ := x
      simp only at *
      rcases r with (e | w) | _ | _ | _ <;> simp only [Res.map] at hv <;> cases hv
      exact hok w rfl
    · unfold Uncached
      cases ha : s.c.artifacts[p.id]? with
      | none => rfl
      | some v =>
        rw [C65_hit_is_free h hl ha] at hv
        simp at hv

/-- **C65** Reading and building keeps every cached artifact, however it ends. -/
theorem C65_artifacts_kept (h : Anyhow Y s) {op : Op σ} (hop : op.readsOrBuilds) {r : Res (Ans σ)} (hw : Went Y s op s' r)
    {a : Id} {v : σ.V} (hv : Cached s a v) : Cached s' a v :=
  (h.safe.reads hop hw).keep a v hv

/-- **C65** The artifact held for a live promise was built by that very builder, not by an earlier one at its address, or
written by the caller; no later build, clearing, collection or (completed) invalidation of it happened. -/
theorem C65_artifact_is_own (h : Anyhow Y s) {p : Promise σ} (hl : s.live p = true) {v : σ.V} (hv : Cached s p.id v) :
    Y.artTy v = Y.vty p.b ∧
    ∃ post pre v0, s.c.log = post ++ .built p v0 :: pre ∧ (v0 = v ∨ .write p.id v ∈ post) ∧
      (∀ q w, .built q w ∈ post → q.id ≠ p.id) ∧
      ∀ e ∈ post, e ≠ .clear ∧ e ≠ .clearArtifacts ∧ e ≠ .collect p.id ∧
        ∀ q : Promise σ, q.id = p.id → e ≠ .invalidate q := by
  have hi := h.safe
  obtain ⟨b, hb⟩ := (mem_getElem _ _).1 (hi.healthy.dynKnown _ (hi.healthy.artDyn p.id ((mem_getElem _ _).2 ⟨v, hv⟩)))
  have hbb := hi.healthy.heapKnown _ _ _ hb (live_iff.1 hl)
  subst hbb
  exact ⟨hi.healthy.artTy _ _ _ hv hb, hi.ownArt _ _ _ hv hb⟩

/-- **C65** The same for dynamic states. -/
theorem C65_state_is_own (h : Anyhow Y s) {p : Promise σ} (hl : s.live p = true) {d : σ.S} (hd : HasState s p.id d) :
    Y.stTy d = Y.sty p.b ∧
    ∃ post pre, (s.c.log = post ++ .initDyn p (some d) :: pre ∨ s.c.log = post ++ .setDyn p d :: pre) ∧
      ∀ e ∈ post, e ≠ .clear ∧ e ≠ .collect p.id ∧ ∀ q : Promise σ, q.id = p.id →
        e ≠ .purged q ∧ (∀ d', e ≠ .setDyn q d') ∧ ∀ d', e ≠ .initDyn q (some d') := by
  have hi := h.safe
  obtain ⟨b, hb⟩ := (mem_getElem _ _).1 (hi.healthy.dynKnown p.id ((mem_getElem _ _).2 ⟨d, hd⟩))
  have hbb := hi.healthy.heapKnown _ _ _ hb (live_iff.1 hl)
  subst hbb
  exact ⟨hi.healthy.dynTy _ _ _ hd hb, hi.ownState _ _ _ hd hb⟩

/-- **C65** A dynamic state survives every operation, however it ends, but for `dyn_state_mut` of that builder, a call of
that builder's own build, `purge` of it, `clear_all`, and a garbage collection when nobody references the builder. -/
theorem C65_state_persists (h : Anyhow Y s) {op : Op σ} {r : Res (Ans σ)} (hs : Does Y s op s' r) {a : Id} {d : σ.S}
    (hd : HasState s a d) :
    HasState s' a d ∨
    ((∃ d', HasState s' a d') ∧
      ((∃ p f, op = .dynStateMut p f ∧ p.id = a) ∨ ∃ p : Promise σ, p.id = a ∧ Since s s' (.call p))) ∨
    (∃ p, op = .purge p ∧ p.id = a) ∨ op = .clearAll ∨ (op = .gc ∧ Dead s a) := by
  rcases h.safe.states hs hd with (h | ⟨h1, h2⟩) | ⟨p, f, h1, h2, h3⟩ | h | h | h
  · exact .inl h
  · exact .inr (.inl ⟨h1, .inr h2⟩)
  · exact .inr (.inl ⟨h3, .inl ⟨p, f, h1, h2⟩⟩)
  · exact .inr (.inr (.inl h))
  · exact .inr (.inr (.inr (.inl h)))
  · exact .inr (.inr (.inr (.inr h)))

/-- **C65** A removal only removes: nothing is held afterwards that was not held before. -/
theorem C65_removals_only_remove (n : Nat) (ord : HashOrder) (s : St σ) (op : Removal σ) :
    Within (step Y n ord s op.op).1 s := by
  have w : ∀ {c : Cache σ}, CWithin c s.c → Within { s with c := c } s := fun h => ⟨h.cached, h.state, h.known, h.uses⟩
  have me : Within s s := w (.refl s.c)
  cases op with
  | invalidate p =>
    simp only [Removal.op, step, Op.promise?]
    split
    · simp only [exec, invalidate]
      have := invLoop_within (Y := Y) ord p.id (edgeCount s.c.dependents + 1) ((∅ : IdSet).insert p.id) [p.id] s.c
      change CWithin (invalidateById Y ord p.id s.c).1 s.c at this
      generalize invalidateById Y ord p.id s.c = x at this
      obtain ⟨c, e⟩ := x
      cases e
      · exact w ((emit_within _ _).trans this)
      · exact w this
      · exact w this
    · exact me
  | purge p =>
    simp only [Removal.op, step, Op.promise?]
    split
    · simp only [exec, purge]
      have := invLoop_within (Y := Y) ord p.id (edgeCount s.c.dependents + 1) ((∅ : IdSet).insert p.id) [p.id]
        (({ s.c with known := s.c.known.erase p.id, artifacts := s.c.artifacts.erase p.id, dynStates := s.c.dynStates.erase p.id } : Cache σ).emit (.purged p))
      have h0 : CWithin (({ s.c with known := s.c.known.erase p.id, artifacts := s.c.artifacts.erase p.id, dynStates := s.c.dynStates.erase p.id } : Cache σ).emit (.purged p)) s.c :=
        .of (fun _ _ h => erase_some h) (fun _ _ h => erase_some h) (fun _ h => (ExtTreeMap.mem_erase.1 h).2) rfl
      have := this.trans h0
      change CWithin (invalidateById Y ord p.id (({ s.c with known := s.c.known.erase p.id, artifacts := s.c.artifacts.erase p.id, dynStates := s.c.dynStates.erase p.id } : Cache σ).emit (.purged p))).1 s.c at this
      generalize invalidateById Y ord p.id _ = x at this
      obtain ⟨c, e⟩ := x
      cases e
      · exact w ((emit_within _ _).trans this)
      · exact w this
      · exact w this
    · exact me
  | clearArtifacts =>
    refine w ⟨?_, fun _ _ h => h, fun _ h => h, ?_⟩
    · simp [clearArtifacts, Cache.emit]
    · simp [clearArtifacts, Cache.emit]
  | clearAll =>
    refine w ⟨?_, ?_, ?_, ?_⟩
    all_goals simp [clearAll, Cache.emit]
  | gc =>
    simp only [Removal.op, step, Op.promise?, exec, garbageCollection]
    split
    · exact me
    · split
      · exact me
      · exact w (collectEach_within ..)

/-- **C65** An `invalidate(p)` that returns, has dropped the artifacts of `p` and of all who used it by the cache's records,
however these came about; and the records are never missing a use of which no removal broke off since: see
`C65_new_uses`. -/
theorem C65_invalidate_thorough (s : St σ) {p : Promise σ} {n : Nat} {ord : HashOrder}
    (hr : (step Y n ord s (.invalidate p)).2 = .val .unit) {a : Id} (ha : Hit (UsesNow s) p.id a) :
    Uncached (step Y n ord s (.invalidate p)).1 a := by
  cases hl : s.live p with
  | false => simp [step, Op.promise?, hl] at hr
  | true =>
    rw [step_live rfl hl] at hr ⊢
    simp only [exec] at hr ⊢
    rw [usesNow_eq] at ha
    rcases invalidate_any (Y := Y) s.w ord p s.c with ⟨c1, e1, p1, a1⟩ | ⟨c1, k, e1, p1, hk⟩
    · simp only [e1]; exact a1 a ha
    · simp only [e1, LoopEnd.res] at hr; cases hr

/-- `u` resolved `d` on the way from `s` to `s'`. -/
def ResolvedSince (s s' : St σ) (u d : Id) : Prop := ∃ U D : Promise σ, U.id = u ∧ D.id = d ∧ Since s s' (.resolve U D)

/-- **C65** What is built is recorded properly, whatever panics happened before: all uses of a reading or building operation
are on record after it, also if it failed. -/
theorem C65_new_uses (h : Anyhow Y s) {op : Op σ} (hop : op.readsOrBuilds) {r : Res (Ans σ)} (hw : Went Y s op s' r)
    {u d : Id} : (UsesNow s u d → UsesNow s' u d) ∧ (ResolvedSince s s' u d → UsesNow s' u d) := by
  obtain ⟨h1, new, h2, h3⟩ := micros_resolved (h.safe.reads hop hw).micros
  simp only [usesNow_iff]
  refine ⟨h1 u d, ?_⟩
  rintro ⟨U, D, rfl, rfl, new', e1, e2⟩
  rw [h2] at e1
  rw [← List.append_cancel_right e1] at e2
  exact h3 U D e2

/-- **C65** So if `get(q)` built, in whatever state, and now `invalidate(p)` returns, then of all that was built then nothing
is left that resolved `p`, directly or through others. -/
theorem C65_fresh_builds_invalidated (h : Anyhow Y s) {how : Access} {q : Promise σ} {r : Res (Ans σ)}
    (hw : Went Y s (.get how q) s' r) {p : Promise σ} {n : Nat} {ord : HashOrder}
    (hr : (step Y n ord s' (.invalidate p)).2 = .val .unit) {a : Id} (ha : Hit (ResolvedSince s s') p.id a) :
    Uncached (step Y n ord s' (.invalidate p)).1 a := by
  refine C65_invalidate_thorough s' hr ?_
  exact Relation.ReflTransGen.mono (fun u d hx => (C65_new_uses h (op := .get how q) trivial hw).2 hx) _ _ ha

/-- **C65** `clear_all` repairs everything: what follows is, but for the doctor's log, what could follow in a program that
never saw a panic. -/
theorem C65_clear_all_recovers (h : Anyhow Y s) (n : Nat) (ord : HashOrder) :
    let s' := (step Y n ord s .clearAll).1
    ∃ t, Reachable Y t ∧ SameButLog s' t ∧ ∀ hist, (play Y hist s').2 = (play Y hist t).2 := by
  intro s'
  have hi := h.safe
  obtain ⟨t, h1, h2, h3, h4, h5⟩ := replay_heap (Y := Y) s.w s.heap hi.heapInj s.born hi.bornNodup
  have hheap : t.heap = s.heap := by
    ext1 a
    cases hx : s.heap[a]? with
    | some b => exact (h5 a b).2 ⟨hx, hi.healthy.bornHeap a b hx⟩
    | none =>
      cases hy : t.heap[a]? with
      | none => rfl
      | some b => rw [((h5 a b).1 hy).1] at hx; cases hx
  have e : SameButLog s' t := by
    obtain ⟨c, w, heap, born⟩ := t
    simp only at h2 h3 h4 hheap
    subst h2 h3 h4 hheap
    rfl
  exact ⟨t, h1, e, fun hist => (play_sameButLog e hist).1⟩

/-! ## Destructors in mutable accesses -/

/-- **C60** for mutable accesses: if no destructor panics, `lookup_mut`, `get_mut` and `dyn_state_mut` do and answer what
they would without destructors, had these run directly before (they run before anything else of the user's runs). -/
theorem C60_quiet_mutations_partial {D : Destructors σ} (hP : D.Proper) (hD : D.Quiet) (n : Nat) (ord : HashOrder)
    (s : St σ) (op : Mutation σ) (hS : D.Spares op.promise) :
    ∃ s1, OwnSteps s s1 ∧ stepM Y D n ord s op = step Y n ord s1 op.op := by
  rcases stepM_or (Y := Y) D n ord s op hS with ⟨m, hm, e⟩ | ⟨_, _, _, _, ⟨c, m, v, h⟩, _⟩
  · exact ⟨m.st s.c, hm.1 hP, e⟩
  · have := hD c m v
    rw [h] at this; cases this

/-- **C60** If a destructor panics in a mutable access, the panic comes out, the caller gets no reference, and nothing
changed (beside what the destructors did) but that artifacts and recorded uses are gone; all dynamic states and all known
builders stay. -/
theorem C60_mutations_between_partial {D : Destructors σ} (hP : D.Proper) (n : Nat) (ord : HashOrder) (s : St σ)
    (op : Mutation σ) (hS : D.Spares op.promise) :
    let x := stepM Y D n ord s op
    (∃ s1, OwnSteps s s1 ∧ x = step Y n ord s1 op.op) ∨
    x.2 = .panic .user ∧ (∃ c m v, D c m v = (x.1.mem, true)) ∧ OwnSteps { s with c := x.1.c } x.1 ∧
      (∀ a v, Cached x.1 a v → Cached s a v) ∧ (∀ a d, HasState x.1 a d ↔ HasState s a d) ∧
      (∀ a, Known x.1 a ↔ Known s a) ∧ ∀ e, ¬ Since s x.1 e := by
  rcases stepM_or (Y := Y) D n ord s op hS with ⟨m, hm, e⟩ | ⟨c, m, hm, e, h1, h2⟩
  · exact .inl ⟨m.st s.c, hm.1 hP, e⟩
  · right
    rw [e]
    refine ⟨rfl, h1, ?_, h2.art, fun a d => ?_, fun a => ?_, ?_⟩
    · exact OwnSteps.moves (c := s.c) (hm.1 hP) c fun a ha => h2.known ▸ ha
    · simp only [HasState, Shared.st_c, h2.dyn]
    · unfold Known; simp only [Shared.st_c, h2.known]
    · rintro e ⟨new, h3, h4⟩
      simp only [Shared.st_c, h2.log] at h3
      have : new = [] := by simpa using h3
      subst this
      cases h4

/-- **C60** A `dyn_state_mut(p)` in which a destructor panics leaves exactly what an `invalidate(p)` leaves in which it
panics: so `C60_invalidate_partial` tells what is kept, and `C60_stale` what goes wrong. -/
theorem C60_state_mut_is_invalidate (D : Destructors σ) (n : Nat) (ord : HashOrder) (s : St σ) (p : Promise σ)
    (f : σ.S → σ.S) (hp : (stepD Y D ord s (.invalidate p)).2 = .panic .user) :
    stepM Y D n ord s (.dynStateMut p f) = stepD Y D ord s (.invalidate p) := by
  by_cases hl : s.live p = true
  case neg => simp [stepD, Removal.op, Op.promise?, hl] at hp
  case pos =>
    simp only [stepD, Removal.op, Op.promise?, hl, if_true] at hp
    simp only [stepM, stepD, Removal.op, Op.promise?, Mutation.promise, dynStateMutD, hl, if_true]
    generalize invalidateD Y D ord p s.c s.mem = x at hp
    obtain ⟨c, m, e⟩ := x
    cases e <;> simp only [LoopEnd.res] at hp <;> cases hp
    rfl

/-! ## Destructors and hooks -/

/-- The end of a removal with result `r`: the doctor is told, if it is to be. -/
def Removal.told (H : Hooks σ) (op : Removal σ) (r : Res (Ans σ)) (s : St σ) : St σ × Res (Ans σ) :=
  match r, op.report with
  | .val a, some e => callHook H (.report e) s fun s => (s, .val a)
  | r, _ => (s, r)

/-- A removal with hooks, in terms of the one without: the doctor is told when all is done. -/
theorem stepH_removal (H : Hooks σ) (n : Nat) (ord : HashOrder) (s : St σ) (op : Removal σ) :
    stepH Y H n ord s op.op = op.told H (step Y n ord s op.op).2 (step Y n ord s op.op).1 := by
  cases op with
  | invalidate p =>
    simp only [stepH, step, Removal.op, Op.promise?, Removal.told, Removal.report]
    by_cases h : s.live p = true <;> simp only [h, if_true, if_false, Bool.false_eq_true]
    simp only [execH, exec, thenTell]
    generalize invalidate Y ord p s.c = x
    obtain ⟨c, e⟩ := x
    cases e <;> rfl
  | purge p =>
    simp only [stepH, step, Removal.op, Op.promise?, Removal.told, Removal.report]
    by_cases h : s.live p = true <;> simp only [h, if_true, if_false, Bool.false_eq_true]
    simp only [execH, exec, thenTell]
    generalize purge Y ord p s.c = x
    obtain ⟨c, e⟩ := x
    cases e <;> rfl
  | clearArtifacts => rfl
  | clearAll => rfl
  | gc =>
    simp only [stepH, step, Removal.op, Op.promise?, execH, exec, Removal.told, Removal.report]
    generalize garbageCollection Y ord s = x
    obtain ⟨c, e⟩ := x
    cases e <;> rfl

/-- **C60** together with doctors, `Debug` and `Clone` that act and panic: if no destructor panics, a removal with destructors
and hooks has the effect and the answer it has with the hooks alone, where the doctor is told in the state as the destructors
left it; and a mutable access with both does what it does with the hooks alone, had the destructors run directly before. -/
theorem C60_with_hooks_partial {D : Destructors σ} (hP : D.Proper) (hD : D.Quiet) (H : Hooks σ) (n : Nat) (ord : HashOrder)
    (s : St σ) :
    (∀ op : Removal σ, ∃ t, OwnSteps (step Y n ord s op.op).1 t ∧
      stepH Y H n ord s op.op = op.told H (step Y n ord s op.op).2 (step Y n ord s op.op).1 ∧
      stepDH Y D H ord s op = op.told H (step Y n ord s op.op).2 t) ∧
    ∀ op : Mutation σ, D.Spares op.promise → ∃ s1, OwnSteps s s1 ∧ stepMH Y D H n ord s op = stepH Y H n ord s1 op.op := by
  constructor
  · intro op
    obtain ⟨e1, e2⟩ := C60_quiet_drops_partial (Y := Y) hP hD n ord s op
    refine ⟨(stepD Y D ord s op).1, e2, stepH_removal H n ord s op, ?_⟩
    rw [← e1]
    unfold stepDH
    generalize stepD Y D ord s op = x
    obtain ⟨s1, r⟩ := x
    cases r with
    | val a => simp only [Removal.told]; cases op.report <;> rfl
    | _ => rfl
  · intro op hS
    rcases stepMH_or (Y := Y) D H n ord s op hS with ⟨m, hm, e⟩ | ⟨_, _, _, _, ⟨c, m, v, h⟩, _⟩
    · exact ⟨m.st s.c, hm.1 hP, e⟩
    · have := hD c m v
      rw [h] at this; cases this

/-- **C60** If a destructor panics, then it does not matter what the hooks would have done: they are not called, and all is as
`C60_between_partial` and `C60_mutations_between_partial` say. -/
theorem C60_panics_before_hooks_partial {D : Destructors σ} (hP : D.Proper) (H : Hooks σ) (n : Nat) (ord : HashOrder)
    (s : St σ) :
    (∀ op : Removal σ, (stepD Y D ord s op).2 = .panic .user → stepDH Y D H ord s op = stepD Y D ord s op) ∧
    ∀ op : Mutation σ, D.Spares op.promise →
      (∃ s1, OwnSteps s s1 ∧ stepMH Y D H n ord s op = stepH Y H n ord s1 op.op) ∨
      stepMH Y D H n ord s op = stepM Y D n ord s op ∧ (stepM Y D n ord s op).2 = .panic .user ∧
        ∃ c m v, D c m v = ((stepM Y D n ord s op).1.mem, true) := by
  constructor
  · intro op h
    unfold stepDH
    generalize stepD Y D ord s op = x at h
    obtain ⟨s1, r⟩ := x
    cases h
    rfl
  · intro op hS
    cases hl : s.live op.promise with
    | false =>
      left
      refine ⟨s, .refl s, ?_⟩
      cases op <;> simp only [Mutation.promise] at hl <;>
        simp [stepMH, stepH, Mutation.op, Mutation.promise, Op.promise?, hl]
    | true =>
      cases op with
      | lookupMut p f =>
        have e1 : stepMH Y D H n ord s (.lookupMut p f) = stepM Y D n ord s (.lookupMut p f) := by
          simp only [Mutation.promise] at hl
          simp only [stepMH, Mutation.promise, hl, if_true]
        rw [e1]
        rcases stepM_or (Y := Y) D n ord s (.lookupMut p f) hS with ⟨m, hm, e⟩ | ⟨c, m, _, e, h, _⟩
        · exact .inl ⟨m.st s.c, hm.1 hP, e⟩
        · exact .inr ⟨rfl, by rw [e], by rw [e]; exact h⟩
      | getMut p f =>
        simp only [Mutation.promise] at hl hS
        rcases getMutD_either (Y := Y) D ord p s with ⟨m, hm, e⟩ | ⟨c, m, hm, e, h1, h2⟩
        · refine .inl ⟨m.st s.c, hm.1 hP, ?_⟩
          simp only [stepMH, stepH, Mutation.op, Mutation.promise, Op.promise?, hl, hm.live hS hl, if_true, execH]
          rw [e]
          generalize getMut Y ord (buildNH Y H n) p (m.st s.c) = x
          obtain ⟨s1, r⟩ := x
          rcases r with (e | v) | k | _ | _
          · rfl
          · simp only
            cases writeArt Y p f v s1.c <;> rfl
          · rfl
          · rfl
          · rfl
        · right
          simp only [stepMH, stepM, Mutation.promise, hl, if_true]
          rw [e, e]
          exact ⟨rfl, rfl, h1⟩
      | dynStateMut p f =>
        simp only [Mutation.promise] at hl hS
        have hs := invalidateD_mem (Y := Y) (spared_rel D p s.c) ord p s.c s.mem rfl
        rcases invalidateD_or (Y := Y) D ord p s.c s.mem with ⟨m, e⟩ | ⟨h1, h2, h3⟩
        · left
          rw [e] at hs
          refine ⟨m.st s.c, hs.1 hP, ?_⟩
          simp only [stepMH, stepH, Mutation.op, Mutation.promise, Op.promise?, hl, hs.live hS hl, if_true, execH,
            dynStateMutDH, dynStateMutH, Shared.st_c]
          rw [e]
          generalize invalidate Y ord p s.c = x
          obtain ⟨c1, e1⟩ := x
          cases e1 <;> rfl
        · right
          simp only [stepMH, stepM, Mutation.promise, hl, if_true, dynStateMutDH, dynStateMutD]
          generalize invalidateD Y D ord p s.c s.mem = x at h1 h2 h3
          obtain ⟨c1, m1, e1⟩ := x
          simp only at h1
          subst h1
          exact ⟨rfl, rfl, h2⟩

/-! ## What `Does` excludes -/

/-- **C60** is false in another way, too (this is the case `Does` excludes).  If the destructor of the artifact of `p` panics
in `purge(p)`, then the cache does not know `p` any more but still holds its dynamic state.  So it does not keep the address
of `p` from being used again: when `p` is gone and a new builder `q` is created there, `q` gets the state of `p` instead of
one of its own, or, if its states have another type, a panic. -/
theorem C60_foreign_state (h : Reachable Y s) {p q : Promise σ} (hl : s.live p = true) {v : σ.V} (hv : Cached s p.id v)
    {D : Destructors σ} (hD : ∀ c, (D c s.mem (.inl v)).2 = true) (hq : q.id = p.id) (n : Nat)
    (ord : HashOrder) (hb : q.b ∉ (stepD Y D ord s (.purge p)).1.born) :
    let s1 := (stepD Y D ord s (.purge p)).1
    let s2 := (step Y n ord s1 (.free p.id)).1
    let s3 := (step Y n ord s2 (.alloc q)).1
    ∃ d, HasState s p.id d ∧ (stepD Y D ord s (.purge p)).2 = .panic .user ∧ (step Y n ord s2 (.alloc q)).2 = .val .unit ∧
      ¬ Known s3 q.id ∧
      (Y.sty q.b = Y.sty p.b → (step Y n ord s3 (.dynState q)).2 = .val (.state d)) ∧
      (Y.sty q.b ≠ Y.sty p.b → (step Y n ord s3 (.dynState q)).2 = .panic .badDyn) := by
  obtain ⟨d, hd⟩ := (mem_getElem _ _).1 (h.inv.artDyn p.id ((mem_getElem _ _).2 ⟨v, hv⟩))
  obtain ⟨b, hk⟩ := (mem_getElem _ _).1 (h.inv.dynKnown _ ((mem_getElem _ _).2 ⟨d, hd⟩))
  have hpb := h.inv.heapKnown _ _ _ hk (live_iff.1 hl)
  subst hpb
  have ht := h.inv.dynTy _ _ _ hd hk
  let c0 : Cache σ := { s.c with known := s.c.known.erase p.id, artifacts := s.c.artifacts.erase p.id }
  obtain ⟨m, hw⟩ : ∃ m, D c0 s.mem (.inl v) = (m, true) := ⟨_, Prod.ext rfl (hD c0)⟩
  unfold Cached at hv
  have e1 : stepD Y D ord s (.purge p) = (m.st c0, .panic .user) := by
    simp only [stepD, Removal.op, Op.promise?, hl, if_true, purgeD, hv, Option.map_some, dropOpt]
    rw [hw]
    rfl
  have e2 : step Y n ord (step Y n ord (stepD Y D ord s (.purge p)).1 (.free p.id)).1 (.alloc q) =
      ({ c := c0, w := m.w, heap := (m.heap.erase p.id).insert q.id q.b, born := q.b :: m.born }, .val .unit) := by
    rw [e1] at hb ⊢
    simp only [Shared.st_born] at hb
    have hc0 : p.id ∉ c0.known := by simp [c0]
    simp [step, Op.promise?, exec, freeB, allocB, hq, hb, hc0]
  refine ⟨d, hd, by rw [e1], by rw [e2], ?_, ?_, ?_⟩
  · rw [e2]; simp [Known, hq, c0]
  all_goals
    intro hs
    rw [e2]
    simp only [step, Op.promise?, St.live, ExtTreeMap.getElem?_insert_self, beq_self_eq_true, if_true, exec, ensureDyn,
      St.onCache, makeKnown_dynStates, hq]
    rw [show c0.dynStates[p.id]? = some d from hd]
    simp only
    rw [ht]
  · simp [hs, Res.map]
  · simp [Ne.symm hs, Res.map]

/-! ## The hypotheses are met -/

namespace Demo

/-- `lookup_mut(0)` panics in `s1` (finding 2) and the panic is caught. -/
def sCaught : St sig := (step Demo.Y 9 ord s1 (.lookupMut (P 0) (· + 1))).1

theorem caught : (step Demo.Y 9 ord s1 (.lookupMut (P 0) (· + 1))).2 = .panic .noCounterpart := rfl

theorem anyhowCaught : Anyhow Demo.Y sCaught :=
  (C65_reachable reach1).step 9 ord (.lookupMut (P 0) (· + 1)) ⟨by rw [caught]; simp, by rw [caught]; simp⟩

/-- A doctor that leaves its mark and panics. -/
def loud : Hooks sig := fun w _ => (w + 100, true)

/-- The destructor of the artifact of 0 panics in `invalidate(0)` and the panic is caught (the doctor is not called). -/
theorem anyhowBomb : Anyhow Demo.Y sBomb :=
  .does (C65_reachable reach1) (.dropping bomb loud ord (.invalidate (P 0)) bomb_proper (by simp)) (by
    have : (stepDH Demo.Y bomb loud ord s1 (.invalidate (P 0))).2 = .panic .user := rfl
    rw [this]; exact ⟨by simp, by simp⟩)

/-- In both states artifacts are cached that are handed out for free. -/
example : step Demo.Y 0 ord sBomb (.get .ref (P 1)) = (sBomb, .val (.art (.ok (105 : Nat)))) :=
  C65_hit_is_free anyhowBomb (p := P 1) (v := (105 : Nat)) (by decide) rfl 0 ord .ref

example : Cached sCaught 10 5 ∧ step Demo.Y 0 ord sCaught (.get .ref (P 0)) = (sCaught, .val (.art (.ok (5 : Nat)))) :=
  ⟨rfl, C65_hit_is_free anyhowCaught (p := P 0) (v := (5 : Nat)) (by decide) rfl 0 ord .ref⟩

/-- They are their builders' own, of the right type, but outdated: 1 was built with the artifact 5 of 0, and 0 is told to
return 9 now. -/
example : let s := (step Demo.Y 9 ord sBomb (.dynStateMut (P 0) fun _ => 9)).1
    (step Demo.Y 9 ord s (.get .bin (P 0))).2 = .val (.art (.ok (9 : Nat))) ∧
    (step Demo.Y 9 ord s (.get .bin (P 1))).2 = .val (.art (.ok (105 : Nat))) := ⟨rfl, rfl⟩

example : ∃ post pre v0, sBomb.c.log = post ++ .built (P 1) v0 :: pre ∧ (v0 = (105 : Nat) ∨ .write 11 105 ∈ post) := by
  obtain ⟨_, post, pre, v0, h1, h2, _⟩ := C65_artifact_is_own anyhowBomb (p := P 1) (v := (105 : Nat)) (by decide) rfl
  exact ⟨post, pre, v0, h1, h2⟩

/-- The panics that remain do occur: invalidating 1 finds no counterpart for its use of 0, and a garbage collection does not
find its way either. -/
example : (step Demo.Y 9 ord sBomb (.invalidate (P 1))).2 = .panic .noCounterpart ∧
    (Op.invalidate (P 1) : Op sig).mayPanic .noCounterpart :=
  ⟨rfl, (C65_panics anyhowBomb (.went (.plain 9 ord))).1 _ rfl⟩

/-- The state of 0 survived, and survives further operations. -/
example : HasState sCaught 10 5 ∧ HasState (step Demo.Y 9 ord sCaught (.invalidate (P 2))).1 10 5 := ⟨rfl, rfl⟩

/-- A fresh build after the panics: builder 6 resolves 0 (again), and fails; the use is on record. -/
example : UsesNow (step Demo.Y 9 ord sBomb (.get .bin (P 6))).1 16 10 := by
  have h := (C65_new_uses anyhowBomb (op := .get .bin (P 6)) trivial (.plain 9 ord) (u := 16) (d := 10)).2
  exact h ⟨P 6, P 0, rfl, rfl, [.built (P 0) (5 : Nat), .setDyn (P 0) (5 : Nat), .call (P 0), .resolve (P 6) (P 0), .call (P 6),
    .initDyn (P 6) (some (6 : Nat))], rfl, by simp⟩

/-- After the panic of finding 2: 0 and 1 are invalidated and built again (2 is not, the record of its uses is lost). -/
def sAgain : St sig := runOps Demo.Y 9 ord [.invalidate (P 0), .invalidate (P 1)] sCaught

theorem anyhowAgain : Anyhow Demo.Y sAgain :=
  (anyhowCaught.step 9 ord (.invalidate (P 0)) (goesOn_ended trivial)).step 9 ord (.invalidate (P 1)) (goesOn_ended trivial)

/-- What was built again is dropped by a further `invalidate(0)`, by `C65_fresh_builds_invalidated`; the outdated artifact of
2 stays. -/
example : let s := (step Demo.Y 9 ord sAgain (.get .bin (P 1))).1
    Uncached sAgain 11 ∧ Cached s 11 105 ∧ Uncached (step Demo.Y 9 ord s (.invalidate (P 0))).1 11 ∧
    Cached (step Demo.Y 9 ord s (.invalidate (P 0))).1 12 110 := by
  refine ⟨rfl, rfl, ?_, rfl⟩
  refine C65_fresh_builds_invalidated anyhowAgain (how := .bin) (q := P 1) (.plain 9 ord) (p := P 0) (n := 9) (ord := ord) rfl ?_
  refine Relation.ReflTransGen.single ⟨P 1, P 0, rfl, rfl, [.built (P 1) (105 : Nat), .built (P 0) (5 : Nat), .setDyn (P 0) (5 : Nat),
    .call (P 0), .resolve (P 1) (P 0), .call (P 1)], rfl, by simp⟩

/-- Also by the demo: 0 has the state 5, its artifact's destructor panics in `purge(0)`, and a new builder 11 at the address
of 0 (with initial state 11) gets the state 5. -/
example : (step Demo.Y 9 ord (step Demo.Y 9 ord (step Demo.Y 9 ord (stepD Demo.Y bomb ord s1 (.purge (P 0))).1 (.free 10)).1
    (.alloc ⟨10, 11⟩)).1 (.dynState ⟨10, 11⟩)).2 = .val (.state (5 : Nat)) := by
  obtain ⟨d, h1, _, _, _, h2, _⟩ := C60_foreign_state reach1 (p := P 0) (q := ⟨10, (11 : Nat)⟩) (v := (5 : Nat)) (D := bomb)
    (by decide) rfl (fun _ => rfl) rfl 9 ord (by decide)
  have : d = (5 : Nat) := by
    have h3 : HasState s1 10 (5 : Nat) := rfl
    unfold HasState at h1 h3
    rw [show (P 0).id = 10 from rfl, h3] at h1
    exact (Option.some.inj h1).symm
  subst this
  exact h2 rfl

/-- The destructor of the artifact of 0 panics in `dyn_state_mut(0)`: the state is not written, 1 keeps its artifact, and a
second `dyn_state_mut` writes the state, but does not drop it either. -/
example : stepM Demo.Y bomb 9 ord s1 (.dynStateMut (P 0) fun _ => 9) = (sBomb, .panic .user) ∧ HasState sBomb 10 5 ∧
    Cached sBomb 11 105 ∧ Cached (step Demo.Y 9 ord sBomb (.dynStateMut (P 0) fun _ => 9)).1 11 105 := by
  refine ⟨?_, rfl, rfl, rfl⟩
  rw [C60_state_mut_is_invalidate bomb 9 ord s1 (P 0) (fun _ => 9) rfl]
  rfl

/-- Destructors that only count: 2 artifacts of the users of 0 and its own are dropped, then the state is written. -/
example : (stepM Demo.Y (.plain fun w _ => (w + 1, false)) 9 ord s1 (.dynStateMut (P 0) fun _ => 9)) =
    step Demo.Y 9 ord { s1 with w := s1.w + 3 } (.dynStateMut (P 0) fun _ => 9) := rfl

/-- A program that catches this panic goes on. -/
example : Anyhow Demo.Y (stepM Demo.Y bomb 9 ord s1 (.dynStateMut (P 0) fun _ => 9)).1 :=
  .does (C65_reachable reach1) (.mutating bomb loud 9 ord (.dynStateMut (P 0) fun _ => 9) bomb_proper (bomb_spares _)) (by
    have : (stepMH Demo.Y bomb loud 9 ord s1 (.dynStateMut (P 0) fun _ => 9)).2 = .panic .user := rfl
    rw [this]; exact ⟨by simp, by simp⟩)

/-- A doctor that counts its calls and panics, and destructors that count, too: `invalidate(0)` drops three artifacts, then
the doctor's panic comes out. -/
example : (stepDH Demo.Y (.plain fun w _ => (w + 1, false)) loud ord s1 (.invalidate (P 0))).2 = .panic .user ∧
    (stepDH Demo.Y (.plain fun w _ => (w + 1, false)) loud ord s1 (.invalidate (P 0))).1.w = s1.w + 103 ∧
    Uncached (stepDH Demo.Y (.plain fun w _ => (w + 1, false)) loud ord s1 (.invalidate (P 0))).1 12 := ⟨rfl, rfl, rfl⟩

/-- Clearing repairs the cache; and then 1 is built afresh. -/
example : (step Demo.Y 9 ord (step Demo.Y 9 ord (step Demo.Y 9 ord sBomb .clearAll).1 (.dynStateMut (P 0) fun _ => 9)).1
    (.get .bin (P 1))).2 = .val (.art (.ok (109 : Nat))) := rfl

/-! ### The other theorems, applied to these states -/

/-- `C65_lookups`, `C65_get`, `C65_artifacts_kept`, `C65_state_is_own`. -/
example : step Demo.Y 0 ord sBomb (.lookup .bin (P 1)) = (sBomb, .val (.optArt (some (105 : Nat)))) :=
  (C65_lookups anyhowBomb (p := P 1) (by decide) 0 ord).1 .bin

example : ∃ v, Cached (step Demo.Y 9 ord sBomb (.get .bin (P 0))).1 10 v ∧ (5 : Nat) = v ∧ (0 : Nat) = 0 := by
  obtain ⟨v, h1, h2, _⟩ := (C65_get anyhowBomb (p := P 0) (n := 9) (ord := ord) (how := .bin)).1 (5 : Nat) rfl
  exact ⟨v, h1, h2, rfl⟩

example : Cached (step Demo.Y 9 ord sBomb (.get .bin (P 0))).1 11 (105 : Nat) :=
  C65_artifacts_kept anyhowBomb (op := .get .bin (P 0)) trivial (.plain 9 ord) (a := 11) rfl

example : ∃ post pre, sCaught.c.log = post ++ .initDyn (P 0) (some (5 : Nat)) :: pre ∨
    sCaught.c.log = post ++ .setDyn (P 0) (5 : Nat) :: pre := by
  obtain ⟨_, post, pre, h, _⟩ := C65_state_is_own anyhowCaught (p := P 0) (d := (5 : Nat)) (by decide) rfl
  exact ⟨post, pre, h⟩

/-- `C65_state_persists`: in an operation in which, again, a destructor panics. -/
example : let s' := (stepDH Demo.Y bomb loud ord sCaught (.invalidate (P 0))).1
    HasState s' 10 (5 : Nat) ∨ ∃ p : Promise sig, p.id = 10 ∧ Since sCaught s' (.call p) := by
  rcases C65_state_persists anyhowCaught (.dropping bomb loud ord (.invalidate (P 0)) bomb_proper (by simp)) (a := 10)
    (d := (5 : Nat)) rfl with h | ⟨_, ⟨p, f, h, _⟩ | h⟩ | ⟨p, h, _⟩ | h | ⟨h, _⟩
  · exact .inl h
  · cases h
  · exact .inr h
  · cases h
  · cases h
  · cases h

/-- `C65_removals_only_remove`, `C65_invalidate_thorough`: 0 is built again and invalidated. -/
example : Within (step Demo.Y 9 ord sBomb .clearArtifacts).1 sBomb :=
  C65_removals_only_remove (Y := Demo.Y) 9 ord sBomb .clearArtifacts

example : let s := (step Demo.Y 9 ord sBomb (.get .bin (P 0))).1
    Cached s 10 (5 : Nat) ∧ Uncached (step Demo.Y 9 ord s (.invalidate (P 0))).1 10 :=
  ⟨rfl, C65_invalidate_thorough _ (p := P 0) rfl .refl⟩

/-- `C65_clear_all_recovers`: there is such a state. -/
example := C65_clear_all_recovers anyhowBomb 9 ord

/-- `C60_quiet_mutations_partial`, `C60_with_hooks_partial`: destructors that only count meet the hypotheses. -/
example : ∃ s', OwnSteps s1 s' ∧ stepM Demo.Y (.plain fun w _ => (w + 1, false)) 9 ord s1 (.dynStateMut (P 0) fun _ => 9) =
    step Demo.Y 9 ord s' (.dynStateMut (P 0) fun _ => 9) :=
  C60_quiet_mutations_partial (Destructors.plain_proper _) (fun _ _ _ => rfl) 9 ord s1 _ fun _ _ _ h => h

example : ∃ t, OwnSteps (step Demo.Y 9 ord s1 (.purge (P 0))).1 t ∧
    stepH Demo.Y loud 9 ord s1 (.purge (P 0)) =
      Removal.told loud (.purge (P 0)) (.val .unit) (step Demo.Y 9 ord s1 (.purge (P 0))).1 ∧
    stepDH Demo.Y (.plain fun w _ => (w + 1, false)) loud ord s1 (.purge (P 0)) =
      Removal.told loud (.purge (P 0)) (.val .unit) t :=
  (C60_with_hooks_partial (Destructors.plain_proper _) (fun _ _ _ => rfl) loud 9 ord s1).1 (.purge (P 0))

/-- `C60_panics_before_hooks_partial`: the destructor's panic comes first. -/
example : stepDH Demo.Y bomb loud ord s1 (.invalidate (P 0)) = stepD Demo.Y bomb ord s1 (.invalidate (P 0)) :=
  (C60_panics_before_hooks_partial bomb_proper loud 9 ord s1).1 (.invalidate (P 0)) rfl

end Demo

end Daab
