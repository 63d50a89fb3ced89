import Verif.Drops
import Verif.KnownDyn

/-!
# Whatever panics are caught

`Reachable` gives up a program when it catches the panic of finding 2 (C22), because the recorded uses are then incomplete,
and knows nothing of panicking destructors (C60).  Here a program goes on after *every* end an operation can have short of
aborting the process: any panic, of builders, doctors, destructors or of the cache itself.
-/

open Std

namespace Daab

variable {σ : Sig} {Y : Sys σ} {s s' : St σ}

/-! ## Vocabulary -/

/-- The operation `op` can take the program from `s` to `s'` with result `r`: with quiet or any other hooks, and, if it is a
removal or a mutable access, with any destructors (that do what code can do; those that run in a mutable access cannot drop
the builder the caller uses).  The only exclusion is finding 11 (`C60_foreign_state`): a `purge` in which a panicking
destructor leaves the dynamic state of the purged builder behind. -/
inductive Does (Y : Sys σ) (s : St σ) : Op σ → St σ → Res (Ans σ) → Prop
  | went {op : Op σ} {s' : St σ} {r : Res (Ans σ)} : Went Y s op s' r → Does Y s op s' r
  | dropping (D : Destructors σ) (H : Hooks σ) (ord : HashOrder) (op : Removal σ) : D.Proper →
      (∀ p, op = .purge p → (stepD Y D ord s op).2 = .panic .user → ∀ d, ¬ HasState (stepD Y D ord s op).1 p.id d) →
      Does Y s op.op (stepDH Y D H ord s op).1 (stepDH Y D H ord s op).2
  | mutating (D : Destructors σ) (H : Hooks σ) (n : Nat) (ord : HashOrder) (op : Mutation σ) : D.Proper → D.Spares op.promise →
      Does Y s op.op (stepMH Y D H n ord s op).1 (stepMH Y D H n ord s op).2

/-- The states a program can be in that catches every panic, whoever it comes from. -/
inductive Anyhow (Y : Sys σ) : St σ → Prop
  | new (w : σ.W) : Anyhow Y (St.new w)
  | does {s s' : St σ} {op : Op σ} {r : Res (Ans σ)} : Anyhow Y s → Does Y s op s' r → r.ended → Anyhow Y s'

/-- By the history `l` (newest event first): a build of `b` at `a` put an artifact at `a`, nothing was put there by another
build nor was it removed since, and `v` is this artifact or was written by the caller through mutable access. -/
def OwnArt (l : List (Event σ)) (a : Id) (b : σ.B) (v : σ.V) : Prop :=
  ∃ post pre v0, l = post ++ .built ⟨a, b⟩ v0 :: pre ∧ (v0 = v ∨ .write a v ∈ post) ∧
    (∀ q w, .built q w ∈ post → q.id ≠ a) ∧
    ∀ e ∈ post, e ≠ .clear ∧ e ≠ .clearArtifacts ∧ e ≠ .collect a ∧ ∀ q : Promise σ, q.id = a → e ≠ .invalidate q

/-- By the history `l`: the state `d` of `a` was initialised or last set by `b` at `a`. -/
def OwnState (l : List (Event σ)) (a : Id) (b : σ.B) (d : σ.S) : Prop :=
  ∃ post pre, (l = post ++ .initDyn ⟨a, b⟩ (some d) :: pre ∨ l = post ++ .setDyn ⟨a, b⟩ d :: pre) ∧
    ∀ e ∈ post, e ≠ .clear ∧ e ≠ .collect a ∧ ∀ q : Promise σ, q.id = a →
      e ≠ .purged q ∧ (∀ d', e ≠ .setDyn q d') ∧ ∀ d', e ≠ .initDyn q (some d')

/-! ## Loops in any state -/

/-- What a loop that only removes leaves alone, in any state. -/
structure Pruned (c c' : Cache σ) : Prop where
  known : c'.known = c.known
  dyn : c'.dynStates = c.dynStates
  log : c'.log = c.log
  art : ∀ (a : Id) v, c'.artifacts[a]? = some v → c.artifacts[a]? = some v
  none : ∀ a : Id, c.dependents[a]? = none → c'.dependents[a]? = none

theorem Pruned.refl (c : Cache σ) : Pruned c c := ⟨rfl, rfl, rfl, fun _ _ h => h, fun _ h => h⟩

theorem Pruned.trans {c c' c'' : Cache σ} (h : Pruned c c') (h' : Pruned c' c'') : Pruned c c'' :=
  ⟨h'.known.trans h.known, h'.dyn.trans h.dyn, h'.log.trans h.log, fun a v x => h.art a v (h'.art a v x),
    fun a x => h'.none a (h.none a x)⟩

theorem Pruned.art_none {c c' : Cache σ} (h : Pruned c c') {a : Id} (ha : c.artifacts[a]? = .none) :
    c'.artifacts[a]? = .none := by
  cases hx : c'.artifacts[a]? with
  | none => rfl
  | some v => rw [h.art a v hx] at ha; cases ha

/-- The panics of the loops themselves. -/
def LoopPanic (k : Panic) : Prop := k = .noCounterpart ∨ k = .notFound

theorem unlink_any (processed : IdSet) (bid : Id) (l : List Id) (c : Cache σ) :
    Pruned c (unlink Y processed bid l c).1 ∧ (unlink Y processed bid l c).2 ≠ .outOfFuel ∧
    (∀ k, (unlink Y processed bid l c).2 = .panic k → LoopPanic k) ∧
    edgeCount (unlink Y processed bid l c).1.dependents ≤ edgeCount c.dependents ∧
    ∀ u d, u ≠ bid → u ∈ setAt c.dependents d → u ∈ setAt (unlink Y processed bid l c).1.dependents d := by
  induction l generalizing c with
  | nil => exact ⟨.refl c, by simp [unlink], by simp [unlink], le_refl _, fun _ _ _ h => h⟩
  | cons dep rest ih =>
    rw [unlink]
    split
    · exact ih c
    · split
      · exact ⟨.refl c, by simp, by simp [LoopPanic], le_refl _, fun _ _ _ h => h⟩
      · next set hs =>
        have h1 : Pruned c ({ c with dependents := c.dependents.insert dep (set.erase bid) } : Cache σ) := by
          refine ⟨rfl, rfl, rfl, fun _ _ h => h, fun a ha => ?_⟩
          simp only [ExtTreeMap.getElem?_insert]
          split
          · next e =>
            obtain rfl : dep = a := by simpa using e
            rw [hs] at ha; cases ha
          · exact ha
        have h2 : edgeCount (c.dependents.insert dep (set.erase bid)) ≤ edgeCount c.dependents := by
          refine edgeCount_insert_le _ _ _ _ hs ?_
          exact ExtTreeSet.size_erase_le
        have h3 : ∀ u d, u ≠ bid → u ∈ setAt c.dependents d →
            u ∈ setAt (c.dependents.insert dep (set.erase bid)) d := by
          intro u d hu hm
          rw [setAt_insert]
          split
          · next e =>
            subst e
            obtain ⟨us, e1, e2⟩ := mem_setAt.1 hm
            rw [hs] at e1; cases e1
            grind
          · exact hm
        simp only
        split
        · exact ⟨h1, by simp, by simp [LoopPanic], h2, h3⟩
        · have key : ∀ lf, let c1 := ({ c with dependents := c.dependents.insert dep (set.erase bid), leafs := lf } : Cache σ)
              Pruned c (unlink Y processed bid rest c1).1 ∧ (unlink Y processed bid rest c1).2 ≠ .outOfFuel ∧
              (∀ k, (unlink Y processed bid rest c1).2 = .panic k → LoopPanic k) ∧
              edgeCount (unlink Y processed bid rest c1).1.dependents ≤ edgeCount c.dependents ∧
              ∀ u d, u ≠ bid → u ∈ setAt c.dependents d → u ∈ setAt (unlink Y processed bid rest c1).1.dependents d := by
            intro lf c1
            obtain ⟨i1, i2, i3, i4, i5⟩ := ih c1
            have : Pruned c c1 := ⟨h1.known, h1.dyn, h1.log, h1.art, h1.none⟩
            exact ⟨this.trans i1, i2, i3, Nat.le_trans i4 h2, fun u d hu hm => i5 u d hu (h3 u d hu hm)⟩
          split
          · exact key _
          · exact key c.leafs

theorem popDependents_any (ord : HashOrder) (i : IterPoint) (bid : Id) (pending : List Id) (c : Cache σ) :
    Pruned c (popDependents ord i bid pending c).2 ∧
    edgeCount (popDependents ord i bid pending c).2.dependents + (popDependents ord i bid pending c).1.length =
      edgeCount c.dependents + pending.length ∧
    (∀ u, u ∈ setAt c.dependents bid → u ∈ (popDependents ord i bid pending c).1) ∧
    (∀ u, u ∈ pending → u ∈ (popDependents ord i bid pending c).1) ∧
    (∀ u d, d ≠ bid → u ∈ setAt c.dependents d → u ∈ setAt (popDependents ord i bid pending c).2.dependents d) ∧
    (popDependents ord i bid pending c).2.dependents[bid]? = .none := by
  unfold popDependents
  split
  · next set hs =>
    refine ⟨⟨rfl, rfl, rfl, fun _ _ h => h, ?_⟩, ?_, ?_, ?_, ?_, by simp⟩
    · intro a ha
      simp only
      grind
    · simp only [length_foldl_cons]
      have := edgeCount_erase _ _ _ hs
      have h2 : (ord.f i set.toList).length = set.size := by
        rw [(ord.perm i _).length_eq, ExtTreeSet.length_toList]
      omega
    · intro u hu
      rw [mem_foldl_cons]
      obtain ⟨us, e1, e2⟩ := mem_setAt.1 hu
      rw [hs] at e1; cases e1
      refine Or.inl ?_
      rw [(ord.perm i _).mem_iff, ExtTreeSet.mem_toList]
      exact e2
    · intro u hu
      rw [mem_foldl_cons]
      exact Or.inr hu
    · intro u d hd hu
      obtain ⟨us, e1, e2⟩ := mem_setAt.1 hu
      exact mem_setAt.2 ⟨us, by simp only; grind, e2⟩
  · next hs =>
    refine ⟨.refl c, rfl, ?_, fun _ h => h, fun _ _ _ h => h, hs⟩
    intro u hu
    obtain ⟨us, e1, e2⟩ := mem_setAt.1 hu
    rw [hs] at e1; cases e1

theorem popDependencies_any (ord : HashOrder) (i : IterPoint) (processed : IdSet) (bid : Id) (c : Cache σ) :
    Pruned c (popDependencies Y ord i processed bid c).1 ∧ (popDependencies Y ord i processed bid c).2 ≠ .outOfFuel ∧
    (∀ k, (popDependencies Y ord i processed bid c).2 = .panic k → LoopPanic k) ∧
    edgeCount (popDependencies Y ord i processed bid c).1.dependents ≤ edgeCount c.dependents ∧
    ∀ u d, u ≠ bid → u ∈ setAt c.dependents d → u ∈ setAt (popDependencies Y ord i processed bid c).1.dependents d := by
  unfold popDependencies
  split
  · next set hs =>
    obtain ⟨i1, i2, i3, i4, i5⟩ := unlink_any (Y := Y) processed bid (ord.f i set.toList)
      { c with dependencies := c.dependencies.erase bid }
    exact ⟨⟨i1.known, i1.dyn, i1.log, i1.art, i1.none⟩, i2, i3, i4, i5⟩
  · exact ⟨.refl c, by simp, by simp, le_refl _, fun _ _ _ h => h⟩

/-- The loop of `invalidate_by_id`, with any destructors, in any state.  `E` are uses that were on record at the start, `Q` what
was already dealt with. -/
theorem invLoopD_any (D : Destructors σ) (ord : HashOrder) (root : Id) (n : Nat) (processed : IdSet) (pending : List Id)
    (c : Cache σ) (m : Shared σ) (hn : edgeCount c.dependents + pending.length ≤ n)
    (E : Id → Id → Prop) (Q : Id → Prop)
    (hE : ∀ u d, E u d → (Q d → Q u ∨ u ∈ pending) ∧ (¬ Q d → ¬ Q u → u ∈ setAt c.dependents d))
    (hQ : ∀ a : Id, Q a → c.artifacts[a]? = none) :
    let x := invLoopD Y D ord root n processed pending c m
    Pruned c x.1 ∧ x.2.2 ≠ .outOfFuel ∧ (∀ k, x.2.2 = .panic k → LoopPanic k ∨ k = .user ∧ ∃ c m v, (D c m v).2 = true) ∧
    (x.2.2 = .done → ∃ Q' : Id → Prop, (∀ a, Q a → Q' a) ∧ (∀ a ∈ pending, Q' a) ∧ (∀ u d, E u d → Q' d → Q' u) ∧
      ∀ a : Id, Q' a → x.1.artifacts[a]? = none) := by
  induction n generalizing processed pending c m Q with
  | zero =>
    cases pending with
    | nil =>
      refine ⟨.refl c, by simp [invLoopD], by simp [invLoopD], fun _ => ⟨Q, fun _ h => h, by simp, ?_, hQ⟩⟩
      intro u d he hd
      rcases (hE u d he).1 hd with h | h
      · exact h
      · cases h
    | cons b l => simp at hn
  | succ n ih =>
    cases pending with
    | nil =>
      refine ⟨.refl c, by simp [invLoopD], by simp [invLoopD], fun _ => ⟨Q, fun _ h => h, by simp, ?_, hQ⟩⟩
      intro u d he hd
      rcases (hE u d he).1 hd with h | h
      · exact h
      · cases h
    | cons bid pending =>
      rw [invLoopD]
      simp only
      obtain ⟨p1, p2, p3, p4, p5, _⟩ := popDependents_any ord ⟨0, root, n⟩ bid pending c
      generalize popDependents ord ⟨0, root, n⟩ bid pending c = r at p1 p2 p3 p4 p5 ⊢
      obtain ⟨pending', c1⟩ := r
      simp only at p1 p2 p3 p4 p5 ⊢
      obtain ⟨d1, d2, d3, d4, d5⟩ := popDependencies_any (Y := Y) ord ⟨1, root, n⟩ (processed.insert bid) bid c1
      generalize popDependencies Y ord ⟨1, root, n⟩ (processed.insert bid) bid c1 = q at d1 d2 d3 d4 d5 ⊢
      obtain ⟨c2, e⟩ := q
      simp only at d1 d2 d3 d4 d5
      have h2 := p1.trans d1
      cases e with
      | outOfFuel => exact absurd rfl d2
      | panic k => exact ⟨h2, by simp, fun k' h => .inl (d3 k' h), by simp⟩
      | done =>
        simp only
        have h3 : Pruned c ({ c2 with leafs := c2.leafs.insert bid, artifacts := c2.artifacts.erase bid } : Cache σ) :=
          ⟨h2.known, h2.dyn, h2.log, fun a v h => h2.art a v (erase_some h), h2.none⟩
        split
        · next m1 hw =>
          refine ⟨h3, by simp, fun k h => ?_, by simp⟩
          cases h
          obtain ⟨c0, m0, v0, h0⟩ := dropOpt_true hw
          exact .inr ⟨rfl, c0, m0, v0, by rw [h0]⟩
        · next m1 _ =>
          have := ih (processed.insert bid) pending'
            { c2 with leafs := c2.leafs.insert bid, artifacts := c2.artifacts.erase bid } m1
            (by simp only [List.length_cons] at hn ⊢; omega) (fun a => Q a ∨ a = bid)
            (by
              intro u d he
              obtain ⟨e1, e2⟩ := hE u d he
              refine ⟨?_, ?_⟩
              · rintro (hd | rfl)
                · rcases e1 hd with h | h
                  · exact .inl (.inl h)
                  · rcases List.mem_cons.1 h with h | h
                    · exact .inl (.inr h)
                    · exact .inr (p4 u h)
                · by_cases hu : Q u
                  · exact .inl (.inl hu)
                  · by_cases hd : Q d
                    · rcases e1 hd with h | h
                      · exact .inl (.inl h)
                      · rcases List.mem_cons.1 h with h | h
                        · exact .inl (.inr h)
                        · exact .inr (p4 u h)
                    · exact .inr (p3 u (e2 hd hu))
              · intro hd hu
                exact d5 u d (fun h => hu (.inr h)) (p5 u d (fun h => hd (.inr h))
                  (e2 (fun h => hd (.inl h)) (fun h => hu (.inl h)))))
            (by
              intro a ha
              simp only [ExtTreeMap.getElem?_erase]
              split
              · rfl
              · next hb =>
                refine h2.art_none (hQ a ?_)
                rcases ha with h | h
                · exact h
                · subst h; simp at hb)
          obtain ⟨i1, i2, i3, i4⟩ := this
          refine ⟨h3.trans i1, i2, i3, fun hd => ?_⟩
          obtain ⟨Q', q1, q2, q3, q4⟩ := i4 hd
          refine ⟨Q', fun a h => q1 a (.inl h), ?_, q3, q4⟩
          intro a ha
          rcases List.mem_cons.1 ha with h | h
          · exact q1 a (.inr h)
          · exact q2 a (p4 a h)

theorem invalidateByIdD_any (D : Destructors σ) (ord : HashOrder) (a : Id) (c : Cache σ) (m : Shared σ) :
    let x := invalidateByIdD Y D ord a c m
    Pruned c x.1 ∧ x.2.2 ≠ .outOfFuel ∧ (∀ k, x.2.2 = .panic k → LoopPanic k ∨ k = .user ∧ ∃ c m v, (D c m v).2 = true) ∧
    (x.2.2 = .done → ∀ b : Id, Hit (Dep c) a b → x.1.artifacts[b]? = none) := by
  obtain ⟨i1, i2, i3, i4⟩ := invLoopD_any (Y := Y) D ord a (edgeCount c.dependents + 1) ((∅ : IdSet).insert a) [a] c m
    (by simp) (Dep c) (fun _ => False) (fun u d h => ⟨fun h => h.elim, fun _ _ => h⟩) (fun _ h => h.elim)
  refine ⟨i1, i2, i3, fun hd b hb => ?_⟩
  obtain ⟨Q', _, q2, q3, q4⟩ := i4 hd
  refine q4 b ?_
  unfold Hit at hb
  induction hb using Relation.ReflTransGen.head_induction_on with
  | refl => exact q2 a (by simp)
  | head h _ ih => exact q3 _ _ h ih

/-- Destructors that do nothing. -/
def idle (σ : Sig) : Destructors σ := fun _ m _ => (m, false)

/-- Without destructors. -/
theorem invalidateById_any (w : σ.W) (ord : HashOrder) (a : Id) (c : Cache σ) :
    let x := invalidateById Y ord a c
    Pruned c x.1 ∧ x.2 ≠ .outOfFuel ∧ (∀ k, x.2 = .panic k → LoopPanic k) ∧
    (x.2 = .done → ∀ b : Id, Hit (Dep c) a b → x.1.artifacts[b]? = none) := by
  obtain ⟨i1, i2, i3, i4⟩ := invalidateByIdD_any (Y := Y) (idle σ) ord a c ⟨w, ∅, []⟩
  obtain ⟨⟨e1, e2⟩ | ⟨_, ⟨_, _, _, h⟩, _⟩, _⟩ := invLoopD_orBroke (Y := Y) (idle σ) ord a (edgeCount c.dependents + 1)
    ((∅ : IdSet).insert a) [a] c ⟨w, ∅, []⟩
  · simp only [invalidateByIdD] at i1 i2 i3 i4
    rw [e1] at i1 i4
    rw [e2] at i2 i3 i4
    refine ⟨i1, i2, ?_, i4⟩
    intro k hk
    rcases i3 k hk with h | ⟨_, _, _, _, h⟩
    · exact h
    · cases h
  · cases h

theorem hit_refl {dep : Id → Id → Prop} (a : Id) : Hit dep a a := Relation.ReflTransGen.refl

theorem invEach_any (w : σ.W) (ord : HashOrder) (l : List Id) (c : Cache σ) :
    Pruned c (invEach Y ord l c).1 ∧ (invEach Y ord l c).2 ≠ .outOfFuel ∧
    ∀ k, (invEach Y ord l c).2 = .panic k → LoopPanic k := by
  induction l generalizing c with
  | nil => exact ⟨.refl c, by simp [invEach], by simp [invEach]⟩
  | cons a l ih =>
    rw [invEach]
    obtain ⟨i1, i2, i3, _⟩ := invalidateById_any (Y := Y) w ord a c
    generalize invalidateById Y ord a c = x at i1 i2 i3
    obtain ⟨c1, e⟩ := x
    cases e with
    | done =>
      obtain ⟨j1, j2, j3⟩ := ih c1
      exact ⟨i1.trans j1, j2, j3⟩
    | panic k => exact ⟨i1, i2, i3⟩
    | outOfFuel => exact absurd rfl i2

/-- `invalidate_dependents` in any state: removes only; if it returns, `a` has no users on record. -/
theorem invalidateDependents_any (w : σ.W) (ord : HashOrder) (a : Id) (c : Cache σ) :
    (∃ c', invalidateDependents Y ord a c = (c'.emit (.mutDeps a), .done) ∧ Pruned c c' ∧ c'.dependents[a]? = none) ∨
    ∃ c' k, invalidateDependents Y ord a c = (c', .panic k) ∧ Pruned c c' ∧ LoopPanic k := by
  unfold invalidateDependents
  cases hd : c.dependents[a]? with
  | none => exact .inl ⟨{ c with leafs := c.leafs.insert a }, rfl, ⟨rfl, rfl, rfl, fun _ _ h => h, fun _ h => h⟩, hd⟩
  | some set =>
    simp only
    obtain ⟨i1, i2, i3⟩ := invEach_any (Y := Y) w ord (ord.f ⟨2, a, 0⟩ set.toList)
      { c with dependents := c.dependents.erase a }
    have h0 : Pruned c ({ c with dependents := c.dependents.erase a } : Cache σ) := by
      refine ⟨rfl, rfl, rfl, fun _ _ h => h, ?_⟩
      intro x hx
      simp only
      grind
    generalize invEach Y ord (ord.f ⟨2, a, 0⟩ set.toList) { c with dependents := c.dependents.erase a } = x at i1 i2 i3
    obtain ⟨c1, e⟩ := x
    have h1 := h0.trans i1
    have h2 : c1.dependents[a]? = none := i1.none a (by simp)
    cases e with
    | done => exact .inl ⟨{ c1 with leafs := c1.leafs.insert a }, rfl, ⟨h1.known, h1.dyn, h1.log, h1.art, h1.none⟩, h2⟩
    | panic k => exact .inr ⟨c1, k, rfl, h1, i3 k rfl⟩
    | outOfFuel => exact absurd rfl i2

/-! ## Destructors in mutable accesses -/

/-- The loop with destructors broke off in one that panicked. -/
def Broke (D : Destructors σ) (c : Cache σ) (x : Cache σ × Shared σ × LoopEnd) : Prop :=
  x.2.2 = .panic .user ∧ (∃ c m v, D c m v = (x.2.1, true)) ∧ Pruned c x.1

theorem invalidateByIdD_or (D : Destructors σ) (ord : HashOrder) (a : Id) (c : Cache σ) (m : Shared σ) :
    (∃ m', invalidateByIdD Y D ord a c m = ((invalidateById Y ord a c).1, m', (invalidateById Y ord a c).2)) ∨
    Broke D c (invalidateByIdD Y D ord a c m) := by
  have h0 := (invalidateByIdD_any (Y := Y) D ord a c m).1
  have h1 := invLoopD_orBroke (Y := Y) D ord a (edgeCount c.dependents + 1) ((∅ : IdSet).insert a) [a] c m
  change OrBroke D c m (invalidateById Y ord a c) (invalidateByIdD Y D ord a c m) at h1
  generalize invalidateByIdD Y D ord a c m = x at h0 h1
  obtain ⟨c1, m1, e1⟩ := x
  obtain ⟨⟨h1, h2⟩ | ⟨h1, h2, _⟩, _⟩ := h1
  · exact .inl ⟨m1, by simp only at h1 h2; rw [h1, h2]⟩
  · exact .inr ⟨h1, h2, h0⟩

theorem invalidateD_or (D : Destructors σ) (ord : HashOrder) (p : Promise σ) (c : Cache σ) (m : Shared σ) :
    (∃ m', invalidateD Y D ord p c m = ((invalidate Y ord p c).1, m', (invalidate Y ord p c).2)) ∨
    Broke D c (invalidateD Y D ord p c m) := by
  unfold invalidateD invalidate
  rcases invalidateByIdD_or (Y := Y) D ord p.id c m with ⟨m', e⟩ | h
  · left
    refine ⟨m', ?_⟩
    rw [e]
    generalize invalidateById Y ord p.id c = x
    obtain ⟨c1, e1⟩ := x
    cases e1 <;> rfl
  · right
    generalize invalidateByIdD Y D ord p.id c m = x at h
    obtain ⟨c1, m1, e1⟩ := x
    obtain ⟨h1, h2, h3⟩ := h
    simp only at h1
    subst h1
    exact ⟨rfl, h2, h3⟩

theorem invEachD_or (D : Destructors σ) (ord : HashOrder) (l : List Id) (c : Cache σ) (m : Shared σ) :
    (∃ m', invEachD Y D ord l c m = ((invEach Y ord l c).1, m', (invEach Y ord l c).2)) ∨
    Broke D c (invEachD Y D ord l c m) := by
  induction l generalizing c m with
  | nil => exact .inl ⟨m, rfl⟩
  | cons a rest ih =>
    rw [invEachD, invEach]
    have h0 := (invalidateById_any (Y := Y) m.w ord a c).1
    rcases invalidateByIdD_or (Y := Y) D ord a c m with ⟨m', e⟩ | h
    · rw [e]
      generalize invalidateById Y ord a c = x at h0
      obtain ⟨c1, e1⟩ := x
      cases e1 with
      | done =>
        rcases ih c1 m' with h | ⟨h1, h2, h3⟩
        · exact .inl h
        · exact .inr ⟨h1, h2, h0.trans h3⟩
      | panic k => exact .inl ⟨m', rfl⟩
      | outOfFuel => exact .inl ⟨m', rfl⟩
    · right
      generalize invalidateByIdD Y D ord a c m = x at h
      obtain ⟨c1, m1, e1⟩ := x
      obtain ⟨h1, h2, h3⟩ := h
      simp only at h1
      subst h1
      exact ⟨rfl, h2, h3⟩

theorem invalidateDependentsD_or (D : Destructors σ) (ord : HashOrder) (a : Id) (c : Cache σ) (m : Shared σ) :
    (∃ m', invalidateDependentsD Y D ord a c m =
      ((invalidateDependents Y ord a c).1, m', (invalidateDependents Y ord a c).2)) ∨
    Broke D c (invalidateDependentsD Y D ord a c m) := by
  unfold invalidateDependentsD invalidateDependents
  cases hd : c.dependents[a]? with
  | none => exact .inl ⟨m, rfl⟩
  | some set =>
    simp only
    have h0 : Pruned c ({ c with dependents := c.dependents.erase a } : Cache σ) := by
      refine ⟨rfl, rfl, rfl, fun _ _ h => h, ?_⟩
      intro x hx
      simp only
      grind
    rcases invEachD_or (Y := Y) D ord (ord.f ⟨2, a, 0⟩ set.toList) { c with dependents := c.dependents.erase a } m with
      ⟨m', e⟩ | h
    · rw [e]
      generalize invEach Y ord (ord.f ⟨2, a, 0⟩ set.toList) { c with dependents := c.dependents.erase a } = x
      obtain ⟨c1, e1⟩ := x
      cases e1 <;> exact .inl ⟨m', rfl⟩
    · right
      generalize invEachD Y D ord (ord.f ⟨2, a, 0⟩ set.toList) { c with dependents := c.dependents.erase a } m = x at h
      obtain ⟨c1, m1, e1⟩ := x
      obtain ⟨h1, h2, h3⟩ := h
      simp only at h1
      subst h1
      exact ⟨rfl, h2, h0.trans h3⟩

/-- What the destructors that run in a loop do to the memory, if the cache's builders stay the same. -/
structure MemRel (D : Destructors σ) (k : AMap σ.B) (R : Shared σ → Shared σ → Prop) : Prop where
  refl : ∀ m, R m m
  trans : ∀ {m m' m''}, R m m' → R m' m'' → R m m''
  drop : ∀ c m x, c.known = k → R m (D c m x).1

theorem dropOpt_mem {D : Destructors σ} {k : AMap σ.B} {R : Shared σ → Shared σ → Prop} (hR : MemRel D k R) {c : Cache σ}
    (hc : c.known = k) (m : Shared σ) (o : Option (σ.V ⊕ σ.S)) : R m (dropOpt D c m o).1 := by
  cases o with
  | none => exact hR.refl m
  | some x => exact hR.drop c m x hc

theorem invLoopD_mem {D : Destructors σ} {k : AMap σ.B} {R : Shared σ → Shared σ → Prop} (hR : MemRel D k R)
    (ord : HashOrder) (root : Id) (n : Nat) (processed : IdSet) (pending : List Id) (c : Cache σ) (m : Shared σ)
    (hc : c.known = k) : R m (invLoopD Y D ord root n processed pending c m).2.1 := by
  induction n generalizing processed pending c m with
  | zero => cases pending <;> exact hR.refl m
  | succ n ih =>
    cases pending with
    | nil => exact hR.refl m
    | cons bid pending =>
      rw [invLoopD]
      simp only
      have h1 := (popDependents_any ord ⟨0, root, n⟩ bid pending c).1
      have h2 := (popDependencies_any (Y := Y) ord ⟨1, root, n⟩ (processed.insert bid) bid
        (popDependents ord ⟨0, root, n⟩ bid pending c).2).1
      generalize popDependencies Y ord ⟨1, root, n⟩ (processed.insert bid) bid
        (popDependents ord ⟨0, root, n⟩ bid pending c).2 = q at h2 ⊢
      obtain ⟨c1, e⟩ := q
      have hk : c1.known = k := ((h1.trans h2).known).trans hc
      cases e with
      | done =>
        simp only
        have hx := dropOpt_mem hR (c := { c1 with leafs := c1.leafs.insert bid, artifacts := c1.artifacts.erase bid }) hk m
          (c1.artifacts[bid]?.map .inl)
        split
        · next m1 e => rw [e] at hx; exact hx
        · next m1 e => rw [e] at hx; exact hR.trans hx (ih _ _ _ _ hk)
      | panic k => exact hR.refl m
      | outOfFuel => exact hR.refl m

theorem invalidateByIdD_mem {D : Destructors σ} {k : AMap σ.B} {R : Shared σ → Shared σ → Prop} (hR : MemRel D k R)
    (ord : HashOrder) (a : Id) (c : Cache σ) (m : Shared σ) (hc : c.known = k) : R m (invalidateByIdD Y D ord a c m).2.1 :=
  invLoopD_mem hR ord a _ _ _ c m hc

theorem invalidateD_mem {D : Destructors σ} {k : AMap σ.B} {R : Shared σ → Shared σ → Prop} (hR : MemRel D k R)
    (ord : HashOrder) (p : Promise σ) (c : Cache σ) (m : Shared σ) (hc : c.known = k) :
    R m (invalidateD Y D ord p c m).2.1 := by
  have h := invalidateByIdD_mem (Y := Y) hR ord p.id c m hc
  unfold invalidateD
  generalize invalidateByIdD Y D ord p.id c m = x at h
  obtain ⟨c1, m1, e⟩ := x
  cases e <;> exact h

theorem invEachD_mem {D : Destructors σ} {k : AMap σ.B} {R : Shared σ → Shared σ → Prop} (hR : MemRel D k R)
    (ord : HashOrder) (l : List Id) (c : Cache σ) (m : Shared σ) (hc : c.known = k) : R m (invEachD Y D ord l c m).2.1 := by
  induction l generalizing c m with
  | nil => exact hR.refl m
  | cons a rest ih =>
    rw [invEachD]
    have h := invalidateByIdD_mem (Y := Y) hR ord a c m hc
    have h0 := (invalidateByIdD_any (Y := Y) D ord a c m).1
    generalize invalidateByIdD Y D ord a c m = x at h h0
    obtain ⟨c1, m1, e⟩ := x
    cases e with
    | done => exact hR.trans h (ih c1 m1 (h0.known.trans hc))
    | panic k => exact h
    | outOfFuel => exact h

theorem lookupMutD_mem {D : Destructors σ} {k : AMap σ.B} {R : Shared σ → Shared σ → Prop} (hR : MemRel D k R)
    (ord : HashOrder) (p : Promise σ) (c : Cache σ) (m : Shared σ) (hc : c.known = k) :
    R m (lookupMutD Y D ord p c m).2.1 := by
  have h : R m (invalidateDependentsD Y D ord p.id c m).2.1 := by
    unfold invalidateDependentsD
    cases c.dependents[p.id]? with
    | none => exact hR.refl m
    | some set =>
      simp only
      have h := invEachD_mem (Y := Y) hR ord (ord.f ⟨2, p.id, 0⟩ set.toList) { c with dependents := c.dependents.erase p.id } m hc
      generalize invEachD Y D ord (ord.f ⟨2, p.id, 0⟩ set.toList) { c with dependents := c.dependents.erase p.id } m = x at h
      obtain ⟨c1, m1, e⟩ := x
      cases e <;> exact h
  unfold lookupMutD
  generalize invalidateDependentsD Y D ord p.id c m = x at h
  obtain ⟨c1, m1, e⟩ := x
  cases e with
  | done =>
    simp only
    split
    · exact h
    · cases c1.artifacts[p.id]? <;> exact h
  | panic k => exact h
  | outOfFuel => exact h

/-- What proper destructors that spare `p` do to the memory. -/
def Spared (D : Destructors σ) (p : Promise σ) (c : Cache σ) (m m' : Shared σ) : Prop :=
  (D.Proper → OwnSteps (m.st c) (m'.st c)) ∧ (D.Spares p → m.heap[p.id]? = some p.b → m'.heap[p.id]? = some p.b)

theorem spared_rel (D : Destructors σ) (p : Promise σ) (c : Cache σ) : MemRel D c.known (Spared D p c) where
  refl _ := ⟨fun _ => .refl _, fun _ h => h⟩
  trans h h' := ⟨fun hD => (h.1 hD).trans (h'.1 hD), fun hS x => h'.2 hS (h.2 hS x)⟩
  drop c' m x hk := ⟨fun hD => (hD c' m x).moves c fun _ ha => hk ▸ ha, fun hS h => hS c' m x h⟩

/-- The lookup with destructors does what it does without, or broke off. -/
theorem lookupMutD_or (D : Destructors σ) (ord : HashOrder) (p : Promise σ) (c : Cache σ) (m : Shared σ) :
    (∃ m', lookupMutD Y D ord p c m = ((lookupMut Y ord p c).1, m', (lookupMut Y ord p c).2)) ∨
    ∃ c' m', lookupMutD Y D ord p c m = (c', m', .panic .user) ∧ (∃ c m v, D c m v = (m', true)) ∧ Pruned c c' := by
  unfold lookupMutD lookupMut
  rcases invalidateDependentsD_or (Y := Y) D ord p.id c m with ⟨m', e⟩ | h
  · left
    refine ⟨m', ?_⟩
    rw [e]
    generalize invalidateDependents Y ord p.id c = x
    obtain ⟨c1, e1⟩ := x
    cases e1 with
    | done =>
      simp only
      split
      · rfl
      · cases c1.artifacts[p.id]? <;> rfl
    | panic k => rfl
    | outOfFuel => rfl
  · right
    generalize invalidateDependentsD Y D ord p.id c m = x at h
    obtain ⟨c1, m1, e1⟩ := x
    obtain ⟨h1, h2, h3⟩ := h
    simp only at h1
    subst h1
    exact ⟨c1, m1, rfl, h2, h3⟩

/-- A lookup that found something leaves no users on record, so that a second one has nothing to drop. -/
theorem lookupMut_again {ord : HashOrder} {p : Promise σ} {c c1 : Cache σ} {v : σ.V}
    (h : lookupMut Y ord p c = (c1, .val (some v))) (w : σ.W) : c1.dependents[p.id]? = none := by
  unfold lookupMut at h
  rcases invalidateDependents_any (Y := Y) w ord p.id c with ⟨c', e, _, hn⟩ | ⟨c', k, e, _, _⟩
  · rw [e] at h
    simp only at h
    split at h
    · cases h
    · split at h
      · cases h
      · split at h
        · cases h; exact hn
        · cases h
  · rw [e] at h; cases h

theorem lookupMutD_none (D : Destructors σ) (ord : HashOrder) (p : Promise σ) {c : Cache σ} (m : Shared σ)
    (h : c.dependents[p.id]? = none) :
    lookupMutD Y D ord p c m = ((lookupMut Y ord p c).1, m, (lookupMut Y ord p c).2) := by
  simp only [lookupMutD, lookupMut, invalidateDependentsD, invalidateDependents, h, Cache.emit]
  split
  · rfl
  · cases c.artifacts[p.id]? <;> rfl

theorem getMutD_either (D : Destructors σ) (ord : HashOrder) (p : Promise σ) (s : St σ) :
    (∃ m : Shared σ, Spared D p s.c s.mem m ∧
      ∀ bld : BuildFn σ, getMutD Y D ord bld p s = getMut Y ord bld p (m.st s.c)) ∨
    ∃ (c : Cache σ) (m : Shared σ), Spared D p s.c s.mem m ∧
      (∀ bld : BuildFn σ, getMutD Y D ord bld p s = (m.st c, .panic .user)) ∧
      (∃ c' m' v, D c' m' v = (m, true)) ∧ Pruned s.c c := by
  have hs := lookupMutD_mem (Y := Y) (spared_rel D p s.c) ord p s.c s.mem rfl
  unfold getMutD getMut
  rcases lookupMutD_or (Y := Y) D ord p s.c s.mem with ⟨m, e⟩ | ⟨c, m, e, h1, h2⟩
  · left
    rw [e] at hs
    refine ⟨m, hs, fun bld => ?_⟩
    rw [e]
    simp only [Shared.st_c]
    generalize hx : lookupMut Y ord p s.c = x
    obtain ⟨c1, r⟩ := x
    rcases r with (_ | v) | k | _ | _
    · rfl
    · simp only
      rw [lookupMutD_none D ord p m (lookupMut_again hx m.w)]
      generalize lookupMut Y ord p c1 = y
      obtain ⟨c2, r⟩ := y
      rcases r with (_ | v) | k | _ | _ <;> rfl
    · rfl
    · rfl
    · rfl
  · right
    rw [e] at hs ⊢
    exact ⟨c, m, hs, fun _ => rfl, h1, h2⟩

theorem getMutD_or (D : Destructors σ) (ord : HashOrder) (bld : BuildFn σ) (p : Promise σ) (s : St σ) :
    (∃ m : Shared σ, Spared D p s.c s.mem m ∧ getMutD Y D ord bld p s = getMut Y ord bld p (m.st s.c)) ∨
    ∃ (c : Cache σ) (m : Shared σ), Spared D p s.c s.mem m ∧ getMutD Y D ord bld p s = (m.st c, .panic .user) ∧
      (∃ c' m' v, D c' m' v = (m, true)) ∧ Pruned s.c c :=
  (getMutD_either D ord p s).imp (fun ⟨m, h, h'⟩ => ⟨m, h, h' bld⟩) fun ⟨c, m, h, h', h''⟩ => ⟨c, m, h, h' bld, h''⟩

theorem Spared.live {D : Destructors σ} {p : Promise σ} {s : St σ} {m : Shared σ} (h : Spared D p s.c s.mem m)
    (hS : D.Spares p) (hl : s.live p = true) : (m.st s.c).live p = true :=
  live_iff.2 (h.2 hS (live_iff.1 hl))

/-- A mutable access does what it does without destructors (after these did what they do), or broke off in one. -/
theorem stepM_or (D : Destructors σ) (n : Nat) (ord : HashOrder) (s : St σ) (op : Mutation σ) (hS : D.Spares op.promise) :
    (∃ m : Shared σ, Spared D op.promise s.c s.mem m ∧ stepM Y D n ord s op = step Y n ord (m.st s.c) op.op) ∨
    ∃ (c : Cache σ) (m : Shared σ), Spared D op.promise s.c s.mem m ∧ stepM Y D n ord s op = (m.st c, .panic .user) ∧
      (∃ c' m' v, D c' m' v = (m, true)) ∧ Pruned s.c c := by
  cases hl : s.live op.promise with
  | false =>
    left
    refine ⟨s.mem, (spared_rel D op.promise s.c).refl _, ?_⟩
    cases op <;> simp only [Mutation.promise] at hl <;> simp [stepM, step, Mutation.op, Mutation.promise, Op.promise?, hl]
  | true =>
    cases op with
    | lookupMut p f =>
      simp only [Mutation.promise] at hl hS
      have hs := lookupMutD_mem (Y := Y) (spared_rel D p s.c) ord p s.c s.mem rfl
      rcases lookupMutD_or (Y := Y) D ord p s.c s.mem with ⟨m, e⟩ | ⟨c, m, e, h1, h2⟩
      · left
        rw [e] at hs
        refine ⟨m, hs, ?_⟩
        simp only [stepM, step, Mutation.op, Mutation.promise, Op.promise?, hl, hs.live hS hl, if_true, exec, Shared.st_c]
        rw [e]
        generalize lookupMut Y ord p s.c = x
        obtain ⟨c1, r⟩ := x
        rcases r with (_ | v) | k | _ | _
        · rfl
        · simp only
          cases writeArt Y p f v c1 <;> rfl
        · rfl
        · rfl
        · rfl
      · rw [e] at hs
        refine .inr ⟨c, m, hs, ?_, h1, h2⟩
        simp only [stepM, Mutation.promise, hl, if_true]
        rw [e]
    | getMut p f =>
      simp only [Mutation.promise] at hl hS
      rcases getMutD_or (Y := Y) D ord (buildN Y n) p s with ⟨m, hs, e⟩ | ⟨c, m, hs, e, h1, h2⟩
      · left
        refine ⟨m, hs, ?_⟩
        simp only [stepM, step, Mutation.op, Mutation.promise, Op.promise?, hl, hs.live hS hl, if_true, exec]
        rw [e]
        generalize getMut Y ord (buildN Y n) p (m.st s.c) = x
        obtain ⟨s1, r⟩ := x
        rcases r with (e | v) | k | _ | _
        · rfl
        · simp only
          cases writeArt Y p f v s1.c <;> rfl
        · rfl
        · rfl
        · rfl
      · refine .inr ⟨c, m, hs, ?_, h1, h2⟩
        simp only [stepM, Mutation.promise, hl, if_true]
        rw [e]
    | dynStateMut p f =>
      simp only [Mutation.promise] at hl hS
      have hs := invalidateD_mem (Y := Y) (spared_rel D p s.c) ord p s.c s.mem rfl
      rcases invalidateD_or (Y := Y) D ord p s.c s.mem with ⟨m, e⟩ | ⟨h1, h2, h3⟩
      · left
        rw [e] at hs
        refine ⟨m, hs, ?_⟩
        simp only [stepM, step, Mutation.op, Mutation.promise, Op.promise?, hl, hs.live hS hl, if_true, exec, dynStateMutD,
          dynStateMut, Shared.st_c]
        rw [e]
        generalize invalidate Y ord p s.c = x
        obtain ⟨c1, e1⟩ := x
        cases e1 <;> rfl
      · right
        simp only [stepM, Mutation.promise, hl, if_true, dynStateMutD]
        generalize invalidateD Y D ord p s.c s.mem = x at h1 h2 h3 hs
        obtain ⟨c1, m1, e1⟩ := x
        simp only at h1
        subst h1
        exact ⟨c1, m1, hs, rfl, h2, h3⟩

/-- The same with hooks: destructors run before all hooks. -/
theorem stepMH_or (D : Destructors σ) (H : Hooks σ) (n : Nat) (ord : HashOrder) (s : St σ) (op : Mutation σ)
    (hS : D.Spares op.promise) :
    (∃ m : Shared σ, Spared D op.promise s.c s.mem m ∧ stepMH Y D H n ord s op = stepH Y H n ord (m.st s.c) op.op) ∨
    ∃ (c : Cache σ) (m : Shared σ), Spared D op.promise s.c s.mem m ∧ stepMH Y D H n ord s op = (m.st c, .panic .user) ∧
      (∃ c' m' v, D c' m' v = (m, true)) ∧ Pruned s.c c := by
  cases hl : s.live op.promise with
  | false =>
    left
    refine ⟨s.mem, (spared_rel D op.promise s.c).refl _, ?_⟩
    cases op <;> simp only [Mutation.promise] at hl <;> simp [stepMH, stepH, Mutation.op, Mutation.promise, Op.promise?, hl]
  | true =>
    cases op with
    | lookupMut p f =>
      simp only [Mutation.promise] at hl
      have e1 : stepMH Y D H n ord s (.lookupMut p f) = stepM Y D n ord s (.lookupMut p f) := by
        simp only [stepMH, Mutation.promise, hl, if_true]
      have e2 : ∀ m : Shared σ, stepH Y H n ord (m.st s.c) (Mutation.lookupMut p f).op =
          step Y n ord (m.st s.c) (Mutation.lookupMut p f).op := fun m => rfl
      rw [e1]
      simp only [e2]
      exact stepM_or D n ord s (.lookupMut p f) hS
    | getMut p f =>
      simp only [Mutation.promise] at hl hS
      rcases getMutD_or (Y := Y) D ord (buildNH Y H n) p s with ⟨m, hs, e⟩ | ⟨c, m, hs, e, h1, h2⟩
      · left
        refine ⟨m, hs, ?_⟩
        simp only [stepMH, stepH, Mutation.op, Mutation.promise, Op.promise?, hl, hs.live hS hl, if_true, execH]
        rw [e]
        generalize getMut Y ord (buildNH Y H n) p (m.st s.c) = x
        obtain ⟨s1, r⟩ := x
        rcases r with (e | v) | k | _ | _
        · rfl
        · simp only
          cases writeArt Y p f v s1.c <;> rfl
        · rfl
        · rfl
        · rfl
      · refine .inr ⟨c, m, hs, ?_, h1, h2⟩
        simp only [stepMH, Mutation.promise, hl, if_true]
        rw [e]
    | dynStateMut p f =>
      simp only [Mutation.promise] at hl hS
      have hs := invalidateD_mem (Y := Y) (spared_rel D p s.c) ord p s.c s.mem rfl
      rcases invalidateD_or (Y := Y) D ord p s.c s.mem with ⟨m, e⟩ | ⟨h1, h2, h3⟩
      · left
        rw [e] at hs
        refine ⟨m, hs, ?_⟩
        simp only [stepMH, stepH, Mutation.op, Mutation.promise, Op.promise?, hl, hs.live hS hl, if_true, execH, dynStateMutDH,
          dynStateMutH, Shared.st_c]
        rw [e]
        generalize invalidate Y ord p s.c = x
        obtain ⟨c1, e1⟩ := x
        cases e1 <;> rfl
      · right
        simp only [stepMH, Mutation.promise, hl, if_true, dynStateMutDH]
        generalize invalidateD Y D ord p s.c s.mem = x at h1 h2 h3 hs
        obtain ⟨c1, m1, e1⟩ := x
        simp only at h1
        subst h1
        exact ⟨c1, m1, hs, rfl, h2, h3⟩

/-- A removal with hooks: the doctor may change the outside world or panic when all is done. -/
theorem stepDH_or (D : Destructors σ) (H : Hooks σ) (ord : HashOrder) (s : St σ) (op : Removal σ) :
    ∃ w, (stepDH Y D H ord s op).1 = { (stepD Y D ord s op).1 with w := w } ∧
      ((stepDH Y D H ord s op).2 = (stepD Y D ord s op).2 ∨
        (stepDH Y D H ord s op).2 = .panic .user ∧ ∃ a, (stepD Y D ord s op).2 = .val a) := by
  unfold stepDH
  generalize stepD Y D ord s op = x
  obtain ⟨s1, r⟩ := x
  cases r with
  | val a =>
    simp only
    cases op.report with
    | none => exact ⟨s1.w, rfl, .inl rfl⟩
    | some e =>
      simp only [callHook]
      split
      · next w _ => exact ⟨w, rfl, .inr ⟨rfl, a, rfl⟩⟩
      · next w _ => exact ⟨w, rfl, .inl rfl⟩
  | panic k => exact ⟨s1.w, rfl, .inl rfl⟩
  | stuck => exact ⟨s1.w, rfl, .inl rfl⟩
  | overflow => exact ⟨s1.w, rfl, .inl rfl⟩

/-! ## Coarse steps -/

/-- The steps operations consist of, in any state. -/
inductive Coarse (Y : Sys σ) : St σ → St σ → Prop
  | micro {s s' : St σ} : Micro Y s s' → Coarse Y s s'
  | prune {s : St σ} (c' : Cache σ) (w : σ.W) : Pruned s.c c' → Coarse Y s { s with c := c', w := w }
  | told {s : St σ} (p : Promise σ) : s.c.artifacts[p.id]? = none → Coarse Y s (s.onCache (·.emit (.invalidate p)))
  | mutDeps {s : St σ} (a : Id) : Coarse Y s (s.onCache (·.emit (.mutDeps a)))
  | write {s : St σ} (a : Id) (b : σ.B) (v : σ.V) : s.c.known[a]? = some b → a ∈ s.c.artifacts → Y.artTy v = Y.vty b →
      Coarse Y s (s.onCache fun c => { c with artifacts := c.artifacts.insert a v }.emit (.write a v))
  | forget {s : St σ} (a : Id) (e : Event σ) (l : IdSet) : (e = .collect a ∨ ∃ p : Promise σ, p.id = a ∧ e = .purged p) →
      Coarse Y s (s.onCache fun c => { c with known := c.known.erase a, artifacts := c.artifacts.erase a, dynStates := c.dynStates.erase a, leafs := l }.emit e)
  | lose {s : St σ} (c' : Cache σ) : c'.known = s.c.known → c'.log = s.c.log →
      (∀ (a : Id) v, c'.artifacts[a]? = some v → s.c.artifacts[a]? = some v) →
      (∀ (a : Id) d, c'.dynStates[a]? = some d → s.c.dynStates[a]? = some d) →
      (∀ a : Id, a ∈ c'.artifacts → a ∈ c'.dynStates) → Coarse Y s { s with c := c' }
  | clearArtifacts {s : St σ} : Coarse Y s (s.onCache Daab.clearArtifacts)
  | clearAll {s : St σ} : Coarse Y s (s.onCache Daab.clearAll)

/-- Any number of them. -/
abbrev Coarses (Y : Sys σ) := Relation.ReflTransGen (Coarse Y)

/-- What holds whatever panics were caught. -/
structure Safe (Y : Sys σ) (s : St σ) : Prop where
  healthy : Healthy Y s
  ownArt : ∀ (a : Id) b v, s.c.artifacts[a]? = some v → s.c.known[a]? = some b → OwnArt s.c.log a b v
  ownState : ∀ (a : Id) b d, s.c.dynStates[a]? = some d → s.c.known[a]? = some b → OwnState s.c.log a b d
  bornNodup : s.born.Nodup
  heapInj : ∀ (a a' : Id) b, s.heap[a]? = some b → s.heap[a']? = some b → a = a'

theorem Safe.new (w : σ.W) : Safe Y (St.new w) := by
  refine ⟨?_, ?_, ?_, ?_, ?_⟩
  · constructor <;> simp [St.new]
  all_goals simp [St.new]

/-- The event leaves the artifact of `a` alone. -/
def Event.sparesArt (a : Id) : Event σ → Prop
  | .clear | .clearArtifacts => False
  | .collect b => b ≠ a
  | .invalidate q => q.id ≠ a
  | .built q _ => q.id ≠ a
  | _ => True

/-- The event leaves the state of `a` alone. -/
def Event.sparesState (a : Id) : Event σ → Prop
  | .clear => False
  | .collect b => b ≠ a
  | .purged q | .setDyn q _ | .initDyn q (some _) => q.id ≠ a
  | _ => True

theorem OwnArt.cons {l : List (Event σ)} {a : Id} {b : σ.B} {v : σ.V} (h : OwnArt l a b v) {e : Event σ}
    (he : e.sparesArt a) : OwnArt (e :: l) a b v := by
  obtain ⟨post, pre, v0, h1, h2, h3, h4⟩ := h
  refine ⟨e :: post, pre, v0, by simp [h1], ?_, ?_, ?_⟩
  · exact h2.imp id fun h => List.mem_cons_of_mem _ h
  · intro q w hq
    rcases List.mem_cons.1 hq with h | h
    · rw [← h] at he; exact he
    · exact h3 q w h
  · intro e' h
    rcases List.mem_cons.1 h with h | h
    · subst h
      refine ⟨?_, ?_, ?_, ?_⟩
      · rintro rfl; exact he
      · rintro rfl; exact he
      · rintro rfl; exact he rfl
      · rintro q hq rfl; exact he hq
    · exact h4 e' h

theorem OwnState.cons {l : List (Event σ)} {a : Id} {b : σ.B} {d : σ.S} (h : OwnState l a b d) {e : Event σ}
    (he : e.sparesState a) : OwnState (e :: l) a b d := by
  obtain ⟨post, pre, h1, h2⟩ := h
  refine ⟨e :: post, pre, ?_, ?_⟩
  · rcases h1 with h1 | h1
    · exact .inl (by simp [h1])
    · exact .inr (by simp [h1])
  · intro e' h
    rcases List.mem_cons.1 h with h | h
    · subst h
      refine ⟨?_, ?_, fun q hq => ⟨?_, fun d' => ?_, fun d' => ?_⟩⟩
      · rintro rfl; exact he
      · rintro rfl; exact he rfl
      · rintro rfl; exact he hq
      · rintro rfl; exact he hq
      · rintro rfl; exact he hq
    · exact h2 e' h

theorem Safe.micro (h : Safe Y s) (hm : Micro Y s s') : Safe Y s' := by
  have hh := h.healthy.micro hm
  cases hm with
  | known p hl =>
    refine ⟨hh, ?_, ?_, h.bornNodup, h.heapInj⟩
    · intro a b v ha hk
      simp only [St.onCache, makeKnown_artifacts, makeKnown_log, makeKnown_getElem] at ha hk ⊢
      have h1 := h.healthy.dynKnown _ (h.healthy.artDyn a ((mem_getElem _ _).2 ⟨v, ha⟩))
      obtain ⟨b', hb'⟩ := (mem_getElem _ _).1 h1
      have : b = b' := by grind
      subst this
      exact h.ownArt a b v ha hb'
    · intro a b d ha hk
      simp only [St.onCache, makeKnown_dynStates, makeKnown_log, makeKnown_getElem] at ha hk ⊢
      have h1 := h.healthy.dynKnown _ ((mem_getElem _ _).2 ⟨d, ha⟩)
      obtain ⟨b', hb'⟩ := (mem_getElem _ _).1 h1
      have : b = b' := by grind
      subst this
      exact h.ownState a b d ha hb'
  | track u q hu hq =>
    exact ⟨hh, fun a b v ha hk => (h.ownArt a b v ha hk).cons trivial,
      fun a b d ha hk => (h.ownState a b d ha hk).cons trivial, h.bornNodup, h.heapInj⟩
  | init p w d hk hd ht hi =>
    refine ⟨hh, fun a b v ha hk => (h.ownArt a b v ha hk).cons trivial, ?_, h.bornNodup, h.heapInj⟩
    intro a b d' ha hk'
    simp only [Cache.emit] at ha hk' ⊢
    by_cases hap : a = p.id
    · subst hap
      rw [ExtTreeMap.getElem?_insert_self] at ha
      cases ha
      rw [hk] at hk'
      cases hk'
      exact ⟨[], s.c.log, .inl rfl, by simp⟩
    · refine (h.ownState a b d' (by grind) hk').cons ?_
      exact fun h => hap h.symm
  | initPanic p w hk hd hi =>
    exact ⟨hh, fun a b v ha hk => (h.ownArt a b v ha hk).cons trivial,
      fun a b d ha hk => (h.ownState a b d ha hk).cons trivial, h.bornNodup, h.heapInj⟩
  | setDyn p d hk hd ht =>
    refine ⟨hh, fun a b v ha hk => (h.ownArt a b v ha hk).cons trivial, ?_, h.bornNodup, h.heapInj⟩
    intro a b d' ha hk'
    simp only [Cache.emit] at ha hk' ⊢
    by_cases hap : a = p.id
    · subst hap
      rw [ExtTreeMap.getElem?_insert_self] at ha
      cases ha
      rw [hk] at hk'
      cases hk'
      exact ⟨[], s.c.log, .inr rfl, by simp⟩
    · refine (h.ownState a b d' (by grind) hk').cons ?_
      exact fun h => hap h.symm
  | world w => exact ⟨hh, h.ownArt, h.ownState, h.bornNodup, h.heapInj⟩
  | alloc q ha =>
    have hc := allocB_c ha
    unfold allocB at ha
    split at ha
    · cases ha
    · next hn =>
      have hn3 : q.b ∉ s.born := by intro hx; apply hn; simp [hx]
      have hb := h.healthy.bornHeap
      cases ha
      refine ⟨hh, h.ownArt, h.ownState, List.nodup_cons.2 ⟨hn3, h.bornNodup⟩, ?_⟩
      have := h.heapInj
      intro a a' b
      simp only
      grind
  | free a =>
    refine ⟨hh, h.ownArt, h.ownState, h.bornNodup, ?_⟩
    have := h.heapInj
    intro a a' b
    simp only [freeB]
    grind
  | call p hk hd ha =>
    exact ⟨hh, fun a b v ha hk => (h.ownArt a b v ha hk).cons trivial,
      fun a b d ha hk => (h.ownState a b d ha hk).cons trivial, h.bornNodup, h.heapInj⟩
  | built p v hk hd ht _ =>
    refine ⟨hh, ?_, fun a b d ha hk => (h.ownState a b d ha hk).cons trivial, h.bornNodup, h.heapInj⟩
    intro a b v' ha hk'
    simp only [St.onCache, Cache.emit] at ha hk' ⊢
    by_cases hap : a = p.id
    · subst hap
      rw [ExtTreeMap.getElem?_insert_self] at ha
      cases ha
      rw [hk] at hk'
      cases hk'
      exact ⟨[], s.c.log, v, rfl, .inl rfl, by simp, by simp⟩
    · refine (h.ownArt a b v' (by grind) hk').cons ?_
      exact fun h => hap h.symm

instance : Stable Y (Safe Y) := ⟨Safe.healthy, Safe.micro⟩

theorem Safe.coarse (h : Safe Y s) (hm : Coarse Y s s') : Safe Y s' := by
  have H := h.healthy
  cases hm with
  | micro hm => exact h.micro hm
  | prune c' w hp =>
    obtain ⟨hk, hd, hl, ha, _⟩ := hp
    refine ⟨⟨?_, ?_, ?_, H.bornHeap, ?_, ?_, ?_⟩, ?_, ?_, h.bornNodup, h.heapInj⟩
    · intro a hm
      obtain ⟨v, hv⟩ := (mem_getElem _ _).1 hm
      simp only [hd]
      exact H.artDyn a ((mem_getElem _ _).2 ⟨v, ha a v hv⟩)
    · simp only [hd, hk]; exact H.dynKnown
    · simp only [hk]; exact H.heapKnown
    · simp only [hk]; exact H.bornKnown
    · simp only [hk]; exact fun a v b h1 h2 => H.artTy a v b (ha a v h1) h2
    · simp only [hd, hk]; exact H.dynTy
    · simp only [hk, hl]; exact fun a b v h1 h2 => h.ownArt a b v (ha a v h1) h2
    · simp only [hd, hk, hl]; exact h.ownState
  | told p hn =>
    refine ⟨{ H with }, ?_, fun a b d ha hk => (h.ownState a b d ha hk).cons trivial, h.bornNodup, h.heapInj⟩
    intro a b v ha hk
    refine (h.ownArt a b v ha hk).cons ?_
    rintro rfl
    have : s.c.artifacts[p.id]? = some v := ha
    rw [hn] at this; cases this
  | mutDeps a =>
    exact ⟨{ H with }, fun a b v ha hk => (h.ownArt a b v ha hk).cons trivial,
      fun a b d ha hk => (h.ownState a b d ha hk).cons trivial, h.bornNodup, h.heapInj⟩
  | write a b v hk hm ht =>
    refine ⟨{ H with artDyn := ?_, artTy := ?_ }, ?_, fun a b d ha hk => (h.ownState a b d ha hk).cons trivial, h.bornNodup, h.heapInj⟩
    · have := H.artDyn
      simp only [St.onCache, Cache.emit]
      grind
    · have := H.artTy
      simp only [St.onCache, Cache.emit]
      grind
    · intro a' b' v' ha' hk'
      simp only [St.onCache, Cache.emit] at ha' hk' ⊢
      by_cases e : a' = a
      · subst e
        rw [ExtTreeMap.getElem?_insert_self] at ha'
        cases ha'
        rw [hk] at hk'
        cases hk'
        obtain ⟨v0, hv0⟩ := (mem_getElem _ _).1 hm
        obtain ⟨post, pre, v1, h1, h2, h3, h4⟩ := (h.ownArt a' b v0 hv0 hk).cons (e := .write a' v) trivial
        cases post with
        | nil => cases h1
        | cons e0 post =>
          have : e0 = .write a' v := by simp at h1; exact h1.1.symm
          subst this
          exact ⟨_, pre, v1, h1, .inr (by simp), h3, h4⟩
      · exact (h.ownArt a' b' v' (by grind) hk').cons trivial
  | forget a e l he =>
    refine ⟨⟨?_, ?_, ?_, H.bornHeap, ?_, ?_, ?_⟩, ?_, ?_, h.bornNodup, h.heapInj⟩
    · have := H.artDyn; simp only [St.onCache, Cache.emit]; grind
    · have := H.dynKnown; simp only [St.onCache, Cache.emit]; grind
    · have := H.heapKnown; simp only [St.onCache, Cache.emit]; grind
    · have := H.bornKnown; simp only [St.onCache, Cache.emit]; grind
    · have := H.artTy; simp only [St.onCache, Cache.emit]; grind
    · have := H.dynTy; simp only [St.onCache, Cache.emit]; grind
    · intro a' b v ha hk
      simp only [St.onCache, Cache.emit] at ha hk ⊢
      have hne : a' ≠ a := by rintro rfl; simp at ha
      refine (h.ownArt a' b v (erase_some ha) (erase_some hk)).cons ?_
      rcases he with rfl | ⟨p, hp, rfl⟩
      · exact fun h => hne h.symm
      · trivial
    · intro a' b v ha hk
      simp only [St.onCache, Cache.emit] at ha hk ⊢
      have hne : a' ≠ a := by rintro rfl; simp at ha
      refine (h.ownState a' b v (erase_some ha) (erase_some hk)).cons ?_
      rcases he with rfl | ⟨p, hp, rfl⟩
      · exact fun h => hne h.symm
      · exact fun h => hne (h.symm.trans hp)
  | lose c' hk hl ha hd had =>
    refine ⟨⟨had, ?_, ?_, H.bornHeap, ?_, ?_, ?_⟩, ?_, ?_, h.bornNodup, h.heapInj⟩
    · intro a hm
      obtain ⟨d, hd'⟩ := (mem_getElem _ _).1 hm
      simp only [hk]
      exact H.dynKnown a ((mem_getElem _ _).2 ⟨d, hd a d hd'⟩)
    · simp only [hk]; exact H.heapKnown
    · simp only [hk]; exact H.bornKnown
    · simp only [hk]; exact fun a v b h1 h2 => H.artTy a v b (ha a v h1) h2
    · simp only [hk]; exact fun a v b h1 h2 => H.dynTy a v b (hd a v h1) h2
    · simp only [hk, hl]; exact fun a b v h1 h2 => h.ownArt a b v (ha a v h1) h2
    · simp only [hk, hl]; exact fun a b v h1 h2 => h.ownState a b v (hd a v h1) h2
  | clearArtifacts =>
    refine ⟨⟨?_, H.dynKnown, H.heapKnown, H.bornHeap, H.bornKnown, ?_, H.dynTy⟩, ?_, ?_, h.bornNodup, h.heapInj⟩
    · simp [St.onCache, Daab.clearArtifacts, Cache.emit]
    · simp [St.onCache, Daab.clearArtifacts, Cache.emit]
    · simp [St.onCache, Daab.clearArtifacts, Cache.emit]
    · exact fun a b d ha hk => (h.ownState a b d ha hk).cons trivial
  | clearAll =>
    refine ⟨⟨?_, ?_, ?_, H.bornHeap, ?_, ?_, ?_⟩, ?_, ?_, h.bornNodup, h.heapInj⟩
    all_goals simp [St.onCache, Daab.clearAll, Cache.emit]

theorem Safe.coarses (h : Safe Y s) (hm : Coarses Y s s') : Safe Y s' := by
  induction hm with
  | refl => exact h
  | tail _ hm ih => exact ih.coarse hm

theorem Micros.coarses (h : Micros Y s s') : Coarses Y s s' :=
  Relation.ReflTransGen.mono (fun _ _ h => .micro h) _ _ h

/-! ## Operations -/

/-- The operations that run an invalidation. -/
def Op.loops : Op σ → Bool
  | .getMut .. | .lookupMut .. | .dynStateMut .. | .invalidate _ | .purge _ | .gc => true
  | _ => false

/-- The operations that may call builders. -/
def Op.builds : Op σ → Bool
  | .get .. | .getMut .. => true
  | _ => false

/-- The panics an operation can end with, whatever happened before. -/
def Op.mayPanic (op : Op σ) (k : Panic) : Prop :=
  k = .user ∨ k = .init ∨ (op.loops = true ∧ (k = .noCounterpart ∨ k = .notFound)) ∨
    (op = .gc ∧ (k = .leafUnknown ∨ k = .gcAssert))

/-- How an operation ends. -/
structure EndsWell (Y : Sys σ) (op : Op σ) (s : St σ) (x : St σ × Res (Ans σ)) : Prop where
  coarses : Coarses Y s x.1
  panics : ∀ k, x.2 = .panic k → op.mayPanic k
  total : op.builds = false → x.2 ≠ .overflow

theorem EndsWell.of_noInternal {op : Op σ} {x : St σ × Res (Ans σ)} (h : Coarses Y s x.1) (hp : x.2.noInternal)
    (ht : op.builds = false → x.2 ≠ .overflow) : EndsWell Y op s x :=
  ⟨h, fun k hk => (hp k hk).elim .inl fun h => .inr (.inl h), ht⟩

theorem EndsWell.val {op : Op σ} {a : Ans σ} (h : Coarses Y s s') : EndsWell Y op s (s', .val a) :=
  ⟨h, by simp, by simp⟩

theorem EndsWell.stuck {op : Op σ} (h : Coarses Y s s') : EndsWell Y op s (s', .stuck) := ⟨h, by simp, by simp⟩

theorem EndsWell.user {op : Op σ} (h : Coarses Y s s') : EndsWell Y op s (s', .panic .user) :=
  ⟨h, by rintro k ⟨⟩; exact .inl rfl, by simp⟩

theorem EndsWell.loop {op : Op σ} (h : Coarses Y s s') (ho : op.loops = true) {k : Panic} (hk : LoopPanic k) :
    EndsWell Y op s (s', .panic k) := ⟨h, by rintro k ⟨⟩; exact .inr (.inr (.inl ⟨ho, hk⟩)), by simp⟩

theorem EndsWell.before {op : Op σ} {s1 : St σ} {x : St σ × Res (Ans σ)} (h : Coarses Y s s1) (hx : EndsWell Y op s1 x) :
    EndsWell Y op s x := ⟨h.trans hx.coarses, hx.panics, hx.total⟩

theorem EndsWell.hook {op : Op σ} {s1 : St σ} (h : Coarses Y s s1) (D : Hooks σ) (hk : Hook σ)
    {k : St σ → St σ × Res (Ans σ)} (hx : ∀ w, EndsWell Y op s (k { s1 with w := w })) :
    EndsWell Y op s (callHook D hk s1 k) := by
  unfold callHook
  split
  · exact .user (h.tail (.micro (.world _)))
  · exact hx _

theorem map_noInternal {α β : Type} {r : Res α} (f : α → β) (h : r.noInternal) : (r.map f).noInternal := by
  cases r with
  | panic k => exact noInternal_cast h
  | val a => exact noInternal_val _
  | stuck => exact noInternal_stuck
  | overflow => exact noInternal_overflow

theorem Safe.lookupMut_done {c c1 : Cache σ} (h1 : Safe Y { s with c := c1 }) {ord : HashOrder} {p : Promise σ} (hl : s.live p = true)
    (e : invalidateDependents Y ord p.id c = (c1, .done)) : Daab.lookupMut Y ord p c = (c1, .val (c1.artifacts[p.id]?)) := by
  unfold Daab.lookupMut
  rw [e]
  simp only
  have hlk := lookup_eq h1 (p := p) hl
  unfold Daab.lookup at hlk
  simp only at hlk
  cases ha : c1.artifacts[p.id]? with
  | none =>
    have : containsArtifact p.id c1 = false := by simp only [containsArtifact]; grind
    simp [this]
  | some v =>
    rw [ha] at hlk
    have hk := h1.healthy.dynKnown _ (h1.healthy.artDyn p.id ((mem_getElem _ _).2 ⟨v, ha⟩))
    have hk' : isKnown p.id c1 = true := by simpa [isKnown] using hk
    simp only [hk', Bool.not_true, Bool.and_false, Bool.false_eq_true, if_false] at hlk
    simp only [hk', Bool.or_true, Bool.not_true, Bool.and_false, Bool.false_eq_true, if_false]
    rw [hlk]

theorem Safe.lookupMut (h : Safe Y s) (ord : HashOrder) {p : Promise σ} (hl : s.live p = true) :
    (∃ c', Daab.lookupMut Y ord p s.c = (c'.emit (.mutDeps p.id), .val (c'.artifacts[p.id]?)) ∧ Pruned s.c c' ∧
      c'.dependents[p.id]? = none) ∨
    ∃ c' k, Daab.lookupMut Y ord p s.c = (c', .panic k) ∧ Pruned s.c c' ∧ LoopPanic k := by
  rcases invalidateDependents_any (Y := Y) s.w ord p.id s.c with ⟨c', e, hp, hn⟩ | ⟨c', k, e, hp, hk⟩
  · have h1 : Safe Y { s with c := c'.emit (.mutDeps p.id) } :=
      (h.coarse (.prune c' s.w hp)).coarse (.mutDeps p.id)
    exact .inl ⟨c', h1.lookupMut_done hl e, hp, hn⟩
  · unfold Daab.lookupMut
    rw [e]
    exact .inr ⟨c', k, rfl, hp, hk⟩

theorem Safe.writes (h : Safe Y s) {p : Promise σ} {f : σ.V → σ.V} {v : σ.V} (ha : s.c.artifacts[p.id]? = some v)
    (ht : Y.artTy v = Y.vty p.b) {c' : Cache σ} (hw : writeArt Y p f v s.c = some c') : Coarse Y s { s with c := c' } := by
  unfold writeArt at hw
  split at hw
  · next hf =>
    cases hw
    have hm : p.id ∈ s.c.artifacts := (mem_getElem _ _).2 ⟨v, ha⟩
    obtain ⟨b, hb⟩ := (mem_getElem _ _).1 (h.healthy.dynKnown _ (h.healthy.artDyn _ hm))
    have hv := h.healthy.artTy _ _ _ ha hb
    exact .write p.id b (f v) hb hm (by rw [hf, ← ht, hv])
  · cases hw

theorem Safe.art_ty (h : Safe Y s) {p : Promise σ} (hl : s.live p = true) {v : σ.V} (ha : s.c.artifacts[p.id]? = some v) :
    Y.artTy v = Y.vty p.b := by
  obtain ⟨b, hb⟩ := (mem_getElem _ _).1 (h.healthy.dynKnown _ (h.healthy.artDyn _ ((mem_getElem _ _).2 ⟨v, ha⟩)))
  have := h.healthy.heapKnown _ _ _ hb (live_iff.1 hl)
  subst this
  exact h.healthy.artTy _ _ _ ha hb

theorem Safe.getMutWrite (h : Safe Y s) {bld : BuildFn σ} (hb : BuildOkI (Safe Y) Y bld) (ord : HashOrder)
    {p : Promise σ} (hl : s.live p = true) (f : σ.V → σ.V) :
    EndsWell Y (.getMut p f) s (getMutWrite Y ord bld p f s) := by
  unfold Daab.getMutWrite Daab.getMut
  rcases h.lookupMut ord hl with ⟨c1, e1, p1, n1⟩ | ⟨c1, k, e1, p1, hk⟩
  · have s1 : Coarses Y s { s with c := c1.emit (.mutDeps p.id) } :=
      (Relation.ReflTransGen.single (.prune c1 s.w p1)).tail (.mutDeps p.id)
    have h1 := h.coarses s1
    cases ha : c1.artifacts[p.id]? with
    | some v =>
      rw [e1, ha]
      have s2 : Coarses Y s { s with c := ({ c1.emit (.mutDeps p.id) with leafs := c1.leafs.insert p.id } : Cache σ).emit (.mutDeps p.id) } := by
        refine (s1.tail (.prune ({ c1.emit (.mutDeps p.id) with leafs := c1.leafs.insert p.id } : Cache σ) s.w ?_)).tail (.mutDeps p.id)
        exact ⟨rfl, rfl, rfl, fun _ _ h => h, fun _ h => h⟩
      have h2 := h.coarses s2
      have e2 := h2.lookupMut_done (p := p) (c := c1.emit (.mutDeps p.id)) (ord := ord) hl (by
        simp only [invalidateDependents, Cache.emit, n1])
      have ha2 : (({ c1.emit (.mutDeps p.id) with leafs := c1.leafs.insert p.id } : Cache σ).emit (.mutDeps p.id)).artifacts[p.id]? = some v := ha
      rw [ha2] at e2
      simp only [e2]
      split
      · next c' hw =>
        exact .val (s2.tail (h2.writes (p := p) ha (h2.art_ty (p := p) hl ha) hw))
      · exact .stuck s2
    | none =>
      rw [e1, ha]
      simp only
      have hbr := hb.ran p _ h1 hl ha
      have hok := hb.ok p _ h1 hl ha
      generalize bld p { s with c := c1.emit (.mutDeps p.id) } = x at hbr hok
      obtain ⟨s', r⟩ := x
      have s2 := s1.trans (Micros.coarses hbr.micros)
      have h2 := h.coarses s2
      rcases r with (e | v) | k | _ | _
      · exact .val s2
      · obtain ⟨hv, ht⟩ := hok v rfl
        simp only [fresh, ht, if_true]
        split
        · next c' hw => exact .val (s2.tail (h2.writes hv ht hw))
        · exact .stuck s2
      · exact .of_noInternal s2 (noInternal_cast hbr.noInt) (by simp [Op.builds])
      · exact .stuck s2
      · exact ⟨s2, by simp [fresh], by simp [Op.builds]⟩
  · rw [e1]
    exact .loop (Relation.ReflTransGen.single (.prune c1 s.w p1)) rfl hk

theorem ensureDyn_total (p : Promise σ) (s : St σ) : (ensureDyn Y p s).2 ≠ .overflow := by
  unfold ensureDyn
  simp only
  split
  · split <;> simp
  · split
    · simp
    · split <;> simp

/-- The end of `dyn_state_mut`, after the invalidation. -/
theorem Safe.setState (h : Safe Y s) {p : Promise σ} (hl : s.live p = true) (f : σ.S → σ.S) :
    EndsWell Y (.dynStateMut p f) s
      (let r : St σ × Res σ.S := match ensureDyn Y p s with
        | (s, .val d) =>
          if Y.stTy (f d) = Y.sty p.b then
            (s.onCache fun c => { c with dynStates := c.dynStates.insert p.id (f d) }.emit (.setDyn p (f d)), .val d)
          else (s, .stuck)
        | r => r
      (r.1, r.2.map .state)) := by
  have hen := ensureDyn_ran h (p := p) hl
  have hto := ensureDyn_total (Y := Y) p s
  generalize ensureDyn Y p s = x at hen hto
  obtain ⟨s1, r⟩ := x
  obtain ⟨hr, hk, ha, hdv⟩ := hen
  have c1 := Micros.coarses hr.micros
  cases r with
  | val d =>
    simp only
    split
    · next ht =>
      have hm := hdv d rfl
      exact .val (c1.tail (.micro (.setDyn p (f d) hk ((mem_getElem _ _).2 ⟨d, hm⟩) ht)))
    · exact .stuck c1
  | panic k => exact .of_noInternal c1 (noInternal_cast hr.noInt) (by simp [Res.map])
  | stuck => exact .stuck c1
  | overflow => exact absurd rfl hto

theorem invalidate_any (w : σ.W) (ord : HashOrder) (p : Promise σ) (c : Cache σ) :
    (∃ c', invalidate Y ord p c = (c'.emit (.invalidate p), .done) ∧ Pruned c c' ∧
      ∀ b : Id, Hit (Dep c) p.id b → c'.artifacts[b]? = none) ∨
    ∃ c' k, invalidate Y ord p c = (c', .panic k) ∧ Pruned c c' ∧ LoopPanic k := by
  unfold invalidate
  obtain ⟨i1, i2, i3, i4⟩ := invalidateById_any (Y := Y) w ord p.id c
  generalize invalidateById Y ord p.id c = x at i1 i2 i3 i4
  obtain ⟨c', e⟩ := x
  cases e with
  | done => exact .inl ⟨c', rfl, i1, i4 rfl⟩
  | panic k => exact .inr ⟨c', k, rfl, i1, i3 k rfl⟩
  | outOfFuel => exact absurd rfl i2

theorem invalidated_coarses {c' : Cache σ} {p : Promise σ} (w : σ.W) (hp : Pruned s.c c') (hd : c'.artifacts[p.id]? = none) :
    Coarses Y s { s with c := c'.emit (.invalidate p), w := w } :=
  (Relation.ReflTransGen.single (.prune c' w hp)).tail (.told (s := { s with c := c', w := w }) p hd)

theorem erase_of_none {α : Type} {m : AMap α} {a : Id} (h : m[a]? = none) : m.erase a = m := by
  ext1 x
  grind

theorem OwnSteps.coarses (h : OwnSteps s s') : Coarses Y s s' := by
  induction h with
  | refl s => exact .refl
  | world f _ ih => exact .head (.micro (.world _)) ih
  | alloc q ha _ ih => exact .head (.micro (.alloc q ha)) ih
  | free a _ ih => exact .head (.micro (.free a)) ih

/-- The garbage collection's loop in any state (what it does to the cache; the memory follows, see `Moves`). -/
theorem collectEachD_any (D : Destructors σ) (ord : HashOrder) (l : List Id) (s : St σ) (m : Shared σ) (h : Safe Y s) :
    let x := collectEachD Y D ord l s.c m
    Coarses Y s { s with c := x.1 } ∧ x.2.2 ≠ .outOfFuel ∧
    ∀ k, x.2.2 = .panic k → LoopPanic k ∨ k = .user ∧ ∃ c m v, (D c m v).2 = true := by
  induction l generalizing s m with
  | nil => exact ⟨.refl, by simp [collectEachD], by simp [collectEachD]⟩
  | cons a rest ih =>
    rw [collectEachD]
    obtain ⟨i1, i2, i3, i4⟩ := invalidateByIdD_any (Y := Y) D ord a s.c m
    generalize invalidateByIdD Y D ord a s.c m = x at i1 i2 i3 i4
    obtain ⟨c1, m1, e⟩ := x
    have s1 : Coarses Y s { s with c := c1 } := .single (.prune c1 s.w i1)
    cases e with
    | panic k => exact ⟨s1, i2, i3⟩
    | outOfFuel => exact absurd rfl i2
    | done =>
      have hn := i4 rfl a (hit_refl a)
      have h1 := h.coarses s1
      simp only at hn ⊢
      split
      · next m2 hw =>
        refine ⟨?_, by simp, ?_⟩
        · refine s1.tail (.lose { c1 with dynStates := c1.dynStates.erase a } rfl rfl (fun _ _ h => h) (fun _ _ h => erase_some h) ?_)
          intro b hb
          have hd := h1.healthy.artDyn b hb
          have hne : b ≠ a := by
            rintro rfl
            obtain ⟨v, hv⟩ := (mem_getElem _ _).1 hb
            simp only at hv
            rw [hn] at hv; cases hv
          simp only at hd ⊢
          grind
        · rintro k ⟨⟩
          obtain ⟨c0, m0, v0, h0⟩ := dropOpt_true hw
          exact .inr ⟨rfl, c0, m0, v0, by rw [h0]⟩
      · next m2 hw =>
        have s2 : Coarses Y s { s with c := { c1 with dynStates := c1.dynStates.erase a, known := c1.known.erase a, leafs := c1.leafs.erase a }.emit (.collect a) } := by
          have := s1.tail (Coarse.forget (Y := Y) a (.collect a) (c1.leafs.erase a) (.inl rfl))
          simp only [St.onCache, erase_of_none hn] at this
          exact this
        obtain ⟨j1, j2, j3⟩ := ih _ m2 (h.coarses s2)
        exact ⟨s2.trans j1, j2, j3⟩

theorem Safe.gcD (h : Safe Y s) (D : Destructors σ) (ord : HashOrder) :
    let x := garbageCollectionD Y D ord s
    Coarses Y s { s with c := x.1 } ∧ x.2.2 ≠ .outOfFuel ∧
    ∀ k, x.2.2 = .panic k → LoopPanic k ∨ (k = .user ∧ ∃ c m v, (D c m v).2 = true) ∨ k = .leafUnknown ∨ k = .gcAssert := by
  unfold garbageCollectionD
  split
  · exact ⟨.refl, by simp, by rintro k ⟨⟩; exact .inr (.inr (.inr rfl))⟩
  · split
    · exact ⟨.refl, by simp, by rintro k ⟨⟩; exact .inr (.inr (.inl rfl))⟩
    · next l _ =>
      obtain ⟨j1, j2, j3⟩ := collectEachD_any D ord l s s.mem h
      exact ⟨j1, j2, fun k hk => (j3 k hk).imp id .inl⟩

theorem quiet_eq {f : Cache σ × LoopEnd} {c : Cache σ} {m : Shared σ} {x : Cache σ × Shared σ × LoopEnd}
    (h : OrBroke (idle σ) c m f x) : x.1 = f.1 ∧ x.2.2 = f.2 := by
  obtain ⟨h | ⟨_, ⟨_, _, _, h⟩, _⟩, _⟩ := h
  · exact h
  · cases h

theorem Safe.gc (h : Safe Y s) (ord : HashOrder) :
    EndsWell Y .gc s ({ s with c := (garbageCollection Y ord s).1 }, (garbageCollection Y ord s).2.res .unit) := by
  obtain ⟨i1, i2, i3⟩ := h.gcD (idle σ) ord
  obtain ⟨e1, e2⟩ := quiet_eq (garbageCollectionD_orBroke (Y := Y) (idle σ) ord s)
  simp only [e1, e2] at i1 i2 i3
  refine ⟨i1, ?_, ?_⟩
  · intro k hk
    have : (garbageCollection Y ord s).2 = .panic k := by
      simp only at hk
      generalize (garbageCollection Y ord s).2 = e at hk
      cases e <;> cases hk
      rfl
    rcases i3 k this with h | ⟨rfl, _⟩ | h | h
    · exact .inr (.inr (.inl ⟨rfl, h⟩))
    · exact .inl rfl
    · exact .inr (.inr (.inr ⟨rfl, .inl h⟩))
    · exact .inr (.inr (.inr ⟨rfl, .inr h⟩))
  · intro _ hk
    simp only at hk
    apply i2
    generalize (garbageCollection Y ord s).2 = e at hk
    cases e <;> cases hk
    rfl

/-- `purge` in any state, with destructors: unless one leaves the state of the purged builder behind. -/
theorem Safe.purgeD (h : Safe Y s) (D : Destructors σ) (ord : HashOrder) (p : Promise σ) (m : Shared σ)
    (hleft : (purgeD Y D ord p s.c m).2.2 = .panic .user → (purgeD Y D ord p s.c m).1.dynStates[p.id]? = none) :
    let x := purgeD Y D ord p s.c m
    Coarses Y s { s with c := x.1 } ∧ x.2.2 ≠ .outOfFuel ∧
    ∀ k, x.2.2 = .panic k → LoopPanic k ∨ k = .user ∧ ∃ c m v, (D c m v).2 = true := by
  have forgotten : Coarses Y s { s with c := ({ s.c with known := s.c.known.erase p.id, artifacts := s.c.artifacts.erase p.id, dynStates := s.c.dynStates.erase p.id } : Cache σ).emit (.purged p) } :=
    Relation.ReflTransGen.single (Coarse.forget p.id (.purged p) s.c.leafs (.inr ⟨p, rfl, rfl⟩))
  unfold Daab.purgeD at hleft ⊢
  simp only at hleft ⊢
  split at hleft
  · next m1 hw =>
    have hd := hleft rfl
    simp only at hd
    refine ⟨?_, by simp, ?_⟩
    · -- nothing of `p` was held in the first place but the artifact
      have hnone : s.c.artifacts[p.id]? = none := by
        cases ha : s.c.artifacts[p.id]? with
        | none => rfl
        | some v =>
          have := h.healthy.artDyn p.id ((mem_getElem _ _).2 ⟨v, ha⟩)
          obtain ⟨d, hd'⟩ := (mem_getElem _ _).1 this
          rw [hd] at hd'; cases hd'
      rw [hnone] at hw
      cases hw
    · rintro k ⟨⟩
      obtain ⟨c0, m0, v0, h0⟩ := dropOpt_true hw
      exact .inr ⟨rfl, c0, m0, v0, by rw [h0]⟩
  · next m1 hw =>
    split at hleft
    · next m2 hw2 =>
      refine ⟨forgotten, by simp, ?_⟩
      rintro k ⟨⟩
      obtain ⟨c0, m0, v0, h0⟩ := dropOpt_true hw2
      exact .inr ⟨rfl, c0, m0, v0, by rw [h0]⟩
    · next m2 hw2 =>
      obtain ⟨i1, i2, i3, i4⟩ := invalidateByIdD_any (Y := Y) D ord p.id
        (({ s.c with known := s.c.known.erase p.id, artifacts := s.c.artifacts.erase p.id, dynStates := s.c.dynStates.erase p.id } : Cache σ).emit (.purged p)) m2
      simp only [Cache.emit] at i1 i2 i3 i4 ⊢
      generalize invalidateByIdD Y D ord p.id _ m2 = x at i1 i2 i3 i4
      obtain ⟨c3, m3, e⟩ := x
      have s3 := forgotten.tail (.prune c3 s.w i1)
      cases e with
      | done => exact ⟨s3.tail (.told (s := { s with c := c3 }) p (i4 rfl _ (hit_refl _))), by simp, by simp⟩
      | panic k => exact ⟨s3, i2, i3⟩
      | outOfFuel => exact absurd rfl i2

theorem Safe.purge (h : Safe Y s) (ord : HashOrder) (p : Promise σ) :
    Coarses Y s { s with c := (purge Y ord p s.c).1 } ∧ (purge Y ord p s.c).2 ≠ .outOfFuel ∧
    ∀ k, (purge Y ord p s.c).2 = .panic k → LoopPanic k := by
  obtain ⟨e1, e2⟩ := quiet_eq (purgeD_orBroke (Y := Y) (idle σ) ord p s.c s.mem)
  have key : (Daab.purge Y ord p s.c).2 ≠ .panic .user := by
    unfold Daab.purge
    simp only
    obtain ⟨_, _, i3, _⟩ := invalidateById_any (Y := Y) s.w ord p.id
        (({ s.c with known := s.c.known.erase p.id, artifacts := s.c.artifacts.erase p.id, dynStates := s.c.dynStates.erase p.id } : Cache σ).emit (.purged p))
    simp only [Cache.emit] at i3 ⊢
    generalize invalidateById Y ord p.id _ = x at i3
    obtain ⟨c, e⟩ := x
    cases e with
    | done => simp
    | outOfFuel => simp
    | panic k =>
      rintro ⟨⟩
      rcases i3 _ rfl with h | h <;> cases h
  obtain ⟨i1, i2, i3⟩ := h.purgeD (idle σ) ord p s.mem (fun hu => absurd (e2 ▸ hu) key)
  simp only [e1, e2] at i1 i2 i3
  refine ⟨i1, i2, fun k hk => ?_⟩
  rcases i3 k hk with h | ⟨_, _, _, _, h⟩
  · exact h
  · cases h

theorem res_panic {α : Type} {e : LoopEnd} {a : α} {k : Panic} (h : e.res a = .panic k) : e = .panic k := by
  cases e <;> cases h
  rfl

theorem res_overflow {α : Type} {e : LoopEnd} {a : α} (h : e.res a = .overflow) : e = .outOfFuel := by
  cases e <;> cases h
  rfl

theorem Safe.exec (h : Safe Y s) (n : Nat) (ord : HashOrder) (op : Op σ)
    (hl : ∀ p, op.promise? = some p → s.live p = true) : EndsWell Y op s (exec Y n ord s op) := by
  cases op with
  | get how p =>
    have hr := (getA_okI Y (Safe Y) n).1.ran how p s h
    exact .of_noInternal (Micros.coarses hr.micros) (map_noInternal _ hr.noInt) (by simp [Op.builds])
  | getMut p f => exact h.getMutWrite (getA_okI Y (Safe Y) n).2 ord (hl p rfl) f
  | lookup how p =>
    have := lookupBy_eq h how (hl p rfl)
    simp only [Daab.exec, this]
    exact .val .refl
  | lookupMut p f =>
    have hl := hl p rfl
    simp only [Daab.exec]
    rcases h.lookupMut ord hl with ⟨c1, e1, p1, n1⟩ | ⟨c1, k, e1, p1, hk⟩
    · have s1 : Coarses Y s { s with c := c1.emit (.mutDeps p.id) } :=
        (Relation.ReflTransGen.single (.prune c1 s.w p1)).tail (.mutDeps p.id)
      have h1 := h.coarses s1
      rw [e1]
      cases ha : c1.artifacts[p.id]? with
      | none => exact .val s1
      | some v =>
        simp only
        split
        · next c' hw => exact .val (s1.tail (h1.writes (p := p) ha (h1.art_ty (p := p) hl ha) hw))
        · exact .stuck s1
    · rw [e1]
      exact .loop (.single (.prune c1 s.w p1)) rfl hk
  | dynState p =>
    have hr := (ensureDyn_ran h (hl p rfl)).1
    refine .of_noInternal (Micros.coarses hr.micros) (map_noInternal _ hr.noInt) fun _ ho => ?_
    simp only [Daab.exec] at ho
    have := ensureDyn_total (Y := Y) p s
    generalize (ensureDyn Y p s).2 = r at ho this
    cases r <;> cases ho
    exact this rfl
  | getDynState p =>
    have hl := hl p rfl
    have : getDynState Y p s.c = .val (s.c.dynStates[p.id]?) := by
      unfold Daab.getDynState
      cases hd : s.c.dynStates[p.id]? with
      | none => rfl
      | some d =>
        have hk := h.healthy.dynKnown _ ((mem_getElem _ _).2 ⟨d, hd⟩)
        obtain ⟨b, hb⟩ := (mem_getElem _ _).1 hk
        have hbb := h.healthy.heapKnown _ _ _ hb (live_iff.1 hl)
        have hk' : isKnown p.id s.c = true := by simpa [Daab.isKnown] using hk
        have := h.healthy.dynTy _ _ _ hd hb
        simp [hk', this, hbb]
    simp only [Daab.exec, this]
    exact .val .refl
  | dynStateMut p f =>
    have hl := hl p rfl
    simp only [Daab.exec, Daab.dynStateMut]
    rcases invalidate_any (Y := Y) s.w ord p s.c with ⟨c1, e1, p1, a1⟩ | ⟨c1, k, e1, p1, hk⟩
    · have s1 : Coarses Y s { s with c := c1.emit (.invalidate p) } := invalidated_coarses s.w p1 (a1 _ (hit_refl _))
      simp only [e1]
      exact ((h.coarses s1).setState (p := p) hl f).before s1
    · simp only [e1]
      exact .loop (.single (.prune c1 s.w p1)) rfl hk
  | isKnown p => exact .val .refl
  | numKnown => exact .val .refl
  | invalidate p =>
    simp only [Daab.exec]
    rcases invalidate_any (Y := Y) s.w ord p s.c with ⟨c1, e1, p1, a1⟩ | ⟨c1, k, e1, p1, hk⟩
    · simp only [e1]
      exact .val (invalidated_coarses s.w p1 (a1 _ (hit_refl _)))
    · simp only [e1]
      exact .loop (.single (.prune c1 s.w p1)) rfl hk
  | purge p =>
    obtain ⟨i1, i2, i3⟩ := h.purge ord p
    exact ⟨i1, fun k hk => .inr (.inr (.inl ⟨rfl, i3 k (res_panic hk)⟩)), fun _ ho => i2 (res_overflow ho)⟩
  | clearArtifacts => exact .val (.single .clearArtifacts)
  | clearAll => exact .val (.single .clearAll)
  | gc => exact h.gc ord
  | alloc p =>
    simp only [Daab.exec]
    cases ha : allocB p s with
    | none => exact .stuck .refl
    | some s' => exact .val (.single (.micro (.alloc p ha)))
  | free a => exact .val (.single (.micro (.free a)))
  | world f => exact .val (.single (.micro (.world _)))

theorem Safe.execH (h : Safe Y s) (D : Hooks σ) (n : Nat) (ord : HashOrder) (op : Op σ)
    (hl : ∀ p, op.promise? = some p → s.live p = true) : EndsWell Y op s (execH Y D n ord s op) := by
  by_cases hd : op.deep = false
  · obtain ⟨w, e1, e2⟩ := execH_shallow (Y := Y) (s := s) D n ord op hd
    have hx := h.exec n ord op hl
    have hc : Coarses Y s (Daab.execH Y D n ord s op).1 := by
      rw [e1]; exact hx.coarses.tail (.micro (.world w))
    refine ⟨hc, ?_, ?_⟩
    · intro k hk
      rcases e2 with e2 | ⟨e2, _⟩
      · exact hx.panics k (e2 ▸ hk)
      · rw [e2] at hk; cases hk; exact .inl rfl
    · intro hb ho
      rcases e2 with e2 | ⟨e2, _⟩
      · exact hx.total hb (e2 ▸ ho)
      · rw [e2] at ho; cases ho
  · cases op with
    | get how p =>
      have hr := (getAH_okI Y (Safe Y) D n).1 how p s h
      exact .of_noInternal (Micros.coarses hr.micros) (map_noInternal _ hr.noInt) (by simp [Op.builds])
    | getMut p f => exact h.getMutWrite (getAH_okI Y (Safe Y) D n).2 ord (hl p rfl) f
    | dynStateMut p f =>
      have hl := hl p rfl
      simp only [Daab.execH, Daab.dynStateMutH]
      rcases invalidate_any (Y := Y) s.w ord p s.c with ⟨c1, e1, p1, a1⟩ | ⟨c1, k, e1, p1, hk⟩
      · have s1 : ∀ w, Coarses Y s { s with c := c1.emit (.invalidate p), w := w } :=
          fun w => invalidated_coarses w p1 (a1 _ (hit_refl _))
        simp only [e1, callHook]
        split
        · exact .user (s1 _)
        · next w _ => exact ((h.coarses (s1 w)).setState (p := p) hl f).before (s1 w)
      · simp only [e1]
        exact .loop (.single (.prune c1 s.w p1)) rfl hk
    | _ => exact absurd rfl hd

theorem step_cases (n : Nat) (ord : HashOrder) (op : Op σ) :
    ((∀ p, op.promise? = some p → s.live p = true) ∧ step Y n ord s op = exec Y n ord s op) ∨
    step Y n ord s op = (s, .stuck) := by
  unfold step
  cases hp : op.promise? with
  | none => refine Or.inl ⟨?_, rfl⟩; intro p h; cases h
  | some p =>
    simp only
    split
    · next hl => refine Or.inl ⟨?_, rfl⟩; intro q h; cases h; exact hl
    · exact Or.inr rfl

theorem Safe.step (h : Safe Y s) (n : Nat) (ord : HashOrder) (op : Op σ) : EndsWell Y op s (step Y n ord s op) := by
  rcases step_cases (Y := Y) (s := s) n ord op with ⟨hl, e⟩ | e
  · rw [e]; exact h.exec n ord op hl
  · rw [e]; exact .stuck .refl

theorem Safe.stepH (h : Safe Y s) (D : Hooks σ) (n : Nat) (ord : HashOrder) (op : Op σ) :
    EndsWell Y op s (stepH Y D n ord s op) := by
  rcases stepH_cases (Y := Y) (s := s) D n ord op with ⟨hl, e⟩ | e
  · rw [e]; exact h.execH D n ord op hl
  · rw [e]; exact .stuck .refl

/-- A removal of a live promise (or of none) is executed, else nothing happens. -/
theorem stepD_cases (D : Destructors σ) (ord : HashOrder) (op : Removal σ) :
    stepD Y D ord s op = (s, .stuck) ∨ stepD Y D ord s op =
      (let x := match op with
        | .invalidate p => invalidateD Y D ord p s.c s.mem
        | .purge p => purgeD Y D ord p s.c s.mem
        | .clearArtifacts => clearArtifactsD D ord s.c s.mem
        | .clearAll => clearAllD D ord s.c s.mem
        | .gc => garbageCollectionD Y D ord s
      ((x.2.1.st x.1), x.2.2.res .unit)) := by
  have two : ∀ (b : Prop) [Decidable b] (x y : St σ × Res (Ans σ)), (if b then x else y) = y ∨ (if b then x else y) = x := by
    intro b _ x y
    by_cases h : b <;> simp [h]
  exact two ..

/-- What a removal with destructors does to the cache. -/
theorem Safe.stepD_cache (h : Safe Y s) (D : Destructors σ) (ord : HashOrder) (op : Removal σ)
    (hleft : ∀ p, op = .purge p → (stepD Y D ord s op).2 = .panic .user → ∀ d, ¬ HasState (stepD Y D ord s op).1 p.id d) :
    EndsWell Y op.op s ({ s with c := (stepD Y D ord s op).1.c }, (stepD Y D ord s op).2) := by
  rcases stepD_cases (Y := Y) (s := s) D ord op with e | e
  · rw [e]; exact .stuck .refl
  · rw [e] at hleft ⊢
    simp only [Shared.st_c]
    cases op with
    | invalidate p =>
      obtain ⟨i1, i2, i3, i4⟩ := invalidateByIdD_any (Y := Y) D ord p.id s.c s.mem
      simp only [invalidateD]
      generalize invalidateByIdD Y D ord p.id s.c s.mem = x at i1 i2 i3 i4
      obtain ⟨c1, m1, e⟩ := x
      cases e with
      | done => exact .val (invalidated_coarses s.w i1 (i4 rfl _ (hit_refl _)))
      | outOfFuel => exact absurd rfl i2
      | panic k =>
        rcases i3 k rfl with h | ⟨rfl, _⟩
        · exact .loop (.single (.prune c1 s.w i1)) rfl h
        · exact .user (.single (.prune c1 s.w i1))
    | purge p =>
      obtain ⟨i1, i2, i3⟩ := h.purgeD D ord p s.mem (by
        intro hu
        have := hleft p rfl (by simp only [hu, LoopEnd.res])
        cases hd : (Daab.purgeD Y D ord p s.c s.mem).1.dynStates[p.id]? with
        | none => rfl
        | some d => exact absurd hd (this d))
      refine ⟨i1, fun k hk => ?_, fun _ ho => i2 (res_overflow ho)⟩
      rcases i3 k (res_panic hk) with h | ⟨rfl, _⟩
      · exact .inr (.inr (.inl ⟨rfl, h⟩))
      · exact .inl rfl
    | clearArtifacts =>
      simp only [clearArtifactsD]
      split
      · refine .user (.single (.lose { s.c with artifacts := ∅ } rfl rfl ?_ (fun _ _ h => h) ?_))
        · simp
        · simp
      · exact .val (.single .clearArtifacts)
    | clearAll =>
      simp only [clearAllD]
      split
      · refine .user (.single (.lose { s.c with artifacts := ∅ } rfl rfl ?_ (fun _ _ h => h) ?_))
        · simp
        · simp
      · split
        · refine .user (.single (.lose { s.c with artifacts := ∅, dynStates := ∅ } rfl rfl ?_ ?_ ?_))
          · simp
          · simp
          · simp
        · exact .val (.single .clearAll)
    | gc =>
      obtain ⟨i1, i2, i3⟩ := h.gcD D ord
      refine ⟨i1, fun k hk => ?_, fun _ ho => i2 (res_overflow ho)⟩
      rcases i3 k (res_panic hk) with h | ⟨rfl, _⟩ | h | h
      · exact .inr (.inr (.inl ⟨rfl, h⟩))
      · exact .inl rfl
      · exact .inr (.inr (.inr ⟨rfl, .inl h⟩))
      · exact .inr (.inr (.inr ⟨rfl, .inr h⟩))

theorem Safe.stepD (h : Safe Y s) {D : Destructors σ} (hP : D.Proper) (ord : HashOrder) (op : Removal σ)
    (hleft : ∀ p, op = .purge p → (stepD Y D ord s op).2 = .panic .user → ∀ d, ¬ HasState (stepD Y D ord s op).1 p.id d) :
    EndsWell Y op.op s (stepD Y D ord s op) := by
  have h1 := h.stepD_cache D ord op hleft
  have h2 : OwnSteps { s with c := (Daab.stepD Y D ord s op).1.c } (Daab.stepD Y D ord s op).1 :=
    (stepD_orBroke (Y := Y) D 0 ord s op).2.2.2 hP _ fun _ h => h
  exact ⟨h1.coarses.trans h2.coarses, h1.panics, h1.total⟩

theorem Safe.stepDH (h : Safe Y s) {D : Destructors σ} (hP : D.Proper) (H : Hooks σ) (ord : HashOrder) (op : Removal σ)
    (hleft : ∀ p, op = .purge p → (Daab.stepD Y D ord s op).2 = .panic .user → ∀ d, ¬ HasState (Daab.stepD Y D ord s op).1 p.id d) :
    EndsWell Y op.op s (Daab.stepDH Y D H ord s op) := by
  have hx := h.stepD hP ord op hleft
  obtain ⟨w, e1, e2⟩ := stepDH_or (Y := Y) D H ord s op
  refine ⟨?_, ?_, ?_⟩
  · rw [e1]; exact hx.coarses.tail (.micro (.world w))
  · intro k hk
    rcases e2 with e2 | ⟨e2, _⟩
    · exact hx.panics k (e2 ▸ hk)
    · rw [e2] at hk; cases hk; exact .inl rfl
  · intro hb ho
    rcases e2 with e2 | ⟨e2, _⟩
    · exact hx.total hb (e2 ▸ ho)
    · rw [e2] at ho; cases ho

theorem Safe.stepMH (h : Safe Y s) {D : Destructors σ} (hP : D.Proper) (H : Hooks σ) (n : Nat) (ord : HashOrder)
    (op : Mutation σ) (hS : D.Spares op.promise) : EndsWell Y op.op s (Daab.stepMH Y D H n ord s op) := by
  rcases stepMH_or (Y := Y) D H n ord s op hS with ⟨m, hm, e⟩ | ⟨c, m, hm, e, _, hp⟩
  · rw [e]
    have hw : Coarses Y s (m.st s.c) := OwnSteps.coarses (hm.1 hP)
    exact ((h.coarses hw).stepH H n ord op.op).before hw
  · rw [e]
    have h1 : Coarses Y s (s.mem.st c) := .single (.prune c s.w hp)
    have h2 : OwnSteps (s.mem.st c) (m.st c) := OwnSteps.moves (c := s.c) (hm.1 hP) c fun a ha => hp.known ▸ ha
    exact .user (h1.trans h2.coarses)

theorem Safe.does (h : Safe Y s) {op : Op σ} {r : Res (Ans σ)} (hd : Does Y s op s' r) : EndsWell Y op s (s', r) := by
  cases hd with
  | went hw =>
    cases hw with
    | plain n ord => exact h.step n ord op
    | hooked D n ord => exact h.stepH D n ord op
  | dropping D H ord op hP hl => exact h.stepDH hP H ord op hl
  | mutating D H n ord op hP hS => exact h.stepMH hP H n ord op hS

theorem Anyhow.safe (h : Anyhow Y s) : Safe Y s := by
  induction h with
  | new w => exact .new w
  | does _ hd _ ih => exact ih.coarses (ih.does hd).coarses

/-! ## What operations do -/

theorem goesOn_ended {α : Type} {r : Res α} (h : r.goesOn) : r.ended := by
  cases r with
  | val a => exact ⟨by simp, by simp⟩
  | panic k => exact ⟨by simp, by simp⟩
  | stuck => cases h
  | overflow => cases h

theorem Anyhow.step (h : Anyhow Y s) (n : Nat) (ord : HashOrder) (op : Op σ) (he : (step Y n ord s op).2.ended) :
    Anyhow Y (Daab.step Y n ord s op).1 := .does h (.went (.plain n ord)) he

/-- Atomic steps forget no use and record each new one. -/
theorem micros_resolved (hm : Micros Y s s') :
    (∀ u d, Dep s.c u d → Dep s'.c u d) ∧ ∃ new, s'.c.log = new ++ s.c.log ∧
      ∀ u d : Promise σ, .resolve u d ∈ new → Dep s'.c u.id d.id := by
  induction hm with
  | refl => exact ⟨fun _ _ h => h, [], rfl, by simp⟩
  | @tail s1 s2 _ hm ih =>
    obtain ⟨h1, new, h2, h3⟩ := ih
    have same : s2.c.dependents = s1.c.dependents → (∃ es, s2.c.log = es ++ s1.c.log ∧ ∀ u d : Promise σ, .resolve u d ∉ es) →
        (∀ u d, Dep s.c u d → Dep s2.c u d) ∧ ∃ new, s2.c.log = new ++ s.c.log ∧
      ∀ u d : Promise σ, .resolve u d ∈ new → Dep s2.c u.id d.id := by
      rintro hd ⟨es, he, hn⟩
      have hD : ∀ u d, Dep s2.c u d ↔ Dep s1.c u d := by intro u d; simp only [Dep, hd]
      refine ⟨fun u d h => (hD u d).2 (h1 u d h), es ++ new, by rw [he, h2, List.append_assoc], ?_⟩
      intro u d hx
      rcases List.mem_append.1 hx with h | h
      · exact absurd h (hn u d)
      · exact (hD _ _).2 (h3 u d h)
    cases hm with
    | known p hl => exact same (makeKnown_dependents _ _) ⟨[], makeKnown_log _ _, by simp⟩
    | track u q hu hq =>
      have hD := fun x y => addEdge_dep u q s1.c x y
      refine ⟨fun x y h => (hD x y).2 (.inl (h1 x y h)), .resolve u q :: new, ?_, ?_⟩
      · simp only [St.onCache, addEdge, Cache.emit, h2, List.cons_append]
      · intro x y hx
        rcases List.mem_cons.1 hx with h | h
        · cases h; exact (hD _ _).2 (.inr ⟨rfl, rfl⟩)
        · exact (hD _ _).2 (.inl (h3 x y h))
    | init p w d => exact same rfl ⟨[_], rfl, by simp⟩
    | initPanic p w => exact same rfl ⟨[_], rfl, by simp⟩
    | setDyn p d => exact same rfl ⟨[_], rfl, by simp⟩
    | world w => exact same rfl ⟨[], rfl, by simp⟩
    | alloc q ha => rw [allocB_c ha] at *; exact same rfl ⟨[], rfl, by simp⟩
    | free a => exact same rfl ⟨[], rfl, by simp⟩
    | call p => exact same rfl ⟨[_], rfl, by simp⟩
    | built p v => exact same rfl ⟨[_], rfl, by simp⟩

/-- What reading and building does, in any safe state. -/
theorem Safe.reads (h : Safe Y s) {op : Op σ} (hop : op.readsOrBuilds) {r : Res (Ans σ)} (hw : Went Y s op s' r) :
    Ran Y noEx s (s', r) := by
  have pure : ∀ w r, r.noInternal → Ran Y noEx s (({ s with w := w } : St σ), (r : Res (Ans σ))) := fun w r hr =>
    Ran.step (.world w) rfl rfl (Ran.refl hr)
  have plain : ∀ n ord, (∀ p, op.promise? = some p → s.live p = true) → Ran Y noEx s (Daab.exec Y n ord s op) := by
    intro n ord hl
    have hx := h.exec n ord op hl
    have noInt : (Daab.exec Y n ord s op).2.noInternal ∨ op.loops = true ∨ op = .gc := by
      by_cases h1 : op.loops = true
      · exact .inr (.inl h1)
      · by_cases h2 : op = .gc
        · exact .inr (.inr h2)
        · refine .inl fun k hk => ?_
          rcases hx.panics k hk with h | h | ⟨h, _⟩ | ⟨h, _⟩
          · exact .inl h
          · exact .inr h
          · exact absurd h h1
          · exact absurd h h2
    cases op with
    | get how p =>
      have hr := (getA_okI Y (Safe Y) n).1.ran how p s h
      exact ⟨hr.micros, hr.keep, map_noInternal _ hr.noInt, hr.artLocal, hr.dynLocal⟩
    | dynState p =>
      have hr := (ensureDyn_ran h (hl p rfl)).1
      exact ⟨hr.micros, hr.keep, map_noInternal _ hr.noInt, hr.artLocal, hr.dynLocal⟩
    | lookup how p =>
      have := lookupBy_eq h how (hl p rfl)
      simp only [Daab.exec, this]
      exact Ran.refl (noInternal_val _)
    | getDynState p =>
      rcases noInt with h | h | h
      · exact pure s.w _ h
      · cases h
      · cases h
    | isKnown p => exact Ran.refl (noInternal_val _)
    | numKnown => exact Ran.refl (noInternal_val _)
    | _ => exact absurd hop (by simp [Op.readsOrBuilds])
  cases hw with
  | plain n ord =>
    rcases step_cases (Y := Y) (s := s) n ord op with ⟨hl, e⟩ | e
    · rw [e]; exact plain n ord hl
    · rw [e]; exact Ran.refl noInternal_stuck
  | hooked D n ord =>
    rcases stepH_cases (Y := Y) (s := s) D n ord op with ⟨hl, e⟩ | e
    · rw [e]
      by_cases hd : op.deep = false
      · obtain ⟨w, e1, e2⟩ := execH_shallow (Y := Y) (s := s) D n ord op hd
        have hr := plain n ord hl
        have hm : Micros Y s (Daab.execH Y D n ord s op).1 := by
          rw [e1]; exact hr.micros.tail (.world w)
        refine ⟨hm, ?_, ?_, ?_, ?_⟩
        · rw [e1]; exact hr.keep
        · intro k hk
          rcases e2 with e2 | ⟨e2, _⟩
          · exact hr.noInt k (e2 ▸ hk)
          · simp only at hk; rw [e2] at hk; cases hk; exact .inl rfl
        · rw [e1]; exact hr.artLocal
        · rw [e1]; exact hr.dynLocal
      · cases op with
        | get how p =>
          have hr := (getAH_okI Y (Safe Y) D n).1 how p s h
          exact ⟨hr.micros, hr.keep, map_noInternal _ hr.noInt, hr.artLocal, hr.dynLocal⟩
        | _ => first | exact absurd rfl hd | exact absurd hop (by simp [Op.readsOrBuilds])
    · rw [e]; exact Ran.refl noInternal_stuck

/-! ### Dynamic states -/

/-- The state `d` of `a` is kept, or changed by a call of the builder at `a`. -/
def StateKept (s s' : St σ) (a : Id) (d : σ.S) : Prop :=
  HasState s' a d ∨ (∃ d', HasState s' a d') ∧ ∃ p : Promise σ, p.id = a ∧ Since s s' (.call p)

theorem StateKept.of_eq {a : Id} {d : σ.S} (hd : HasState s a d) (h : s'.c.dynStates = s.c.dynStates) : StateKept s s' a d :=
  .inl (by unfold HasState; rw [h]; exact hd)

theorem StateKept.of_ran {α : Type} {x : St σ × Res α} {a : Id} {d : σ.S} (h : Ran Y noEx s x) (hd : HasState s a d) :
    StateKept s x.1 a d := by
  rcases h.dynLocal a (by simp) with h1 | ⟨q, hq, hs⟩
  · exact .inl (h1 d hd)
  · exact .inr ⟨(mem_getElem _ _).1 (h.micros.dyn_mono a ((mem_getElem _ _).2 ⟨d, hd⟩)), q, hq, hs⟩

theorem StateKept.before {s1 : St σ} {a : Id} {d : σ.S} (h : StateKept s1 s' a d) (hl : s.c.log <:+ s1.c.log) : StateKept s s' a d := by
  rcases h with h | ⟨h1, p, hp, new, e1, e2⟩
  · exact .inl h
  · obtain ⟨l, hl⟩ := hl
    exact .inr ⟨h1, p, hp, new ++ l, by rw [e1, ← hl, List.append_assoc], List.mem_append_left _ e2⟩

theorem StateKept.after {s1 : St σ} {a : Id} {d : σ.S} (h : StateKept s s1 a d) (hd : s'.c.dynStates = s1.c.dynStates)
    (hl : s1.c.log <:+ s'.c.log) : StateKept s s' a d := by
  rcases h with h | ⟨⟨d', h1⟩, p, hp, new, e1, e2⟩
  · exact .inl (by unfold HasState; rw [hd]; exact h)
  · obtain ⟨l, hl⟩ := hl
    exact .inr ⟨⟨d', by unfold HasState; rw [hd]; exact h1⟩, p, hp, l ++ new, by rw [← hl, e1, List.append_assoc],
      List.mem_append_right _ e2⟩

theorem writeArt_frame {p : Promise σ} {f : σ.V → σ.V} {v : σ.V} {c c' : Cache σ} (h : writeArt Y p f v c = some c') :
    c'.dynStates = c.dynStates ∧ c.log <:+ c'.log := by
  unfold writeArt at h
  split at h
  · cases h; exact ⟨rfl, List.suffix_cons _ _⟩
  · cases h

theorem Safe.getMutWrite_states (h : Safe Y s) {bld : BuildFn σ} (hb : BuildOkI (Safe Y) Y bld) (ord : HashOrder)
    {p : Promise σ} (hl : s.live p = true) (f : σ.V → σ.V) {a : Id} {d : σ.S} (hd : HasState s a d) :
    StateKept s (Daab.getMutWrite Y ord bld p f s).1 a d := by
  unfold Daab.getMutWrite Daab.getMut
  rcases h.lookupMut ord hl with ⟨c1, e1, p1, n1⟩ | ⟨c1, k, e1, p1, hk⟩
  · have s1 : Coarses Y s { s with c := c1.emit (.mutDeps p.id) } :=
      (Relation.ReflTransGen.single (.prune c1 s.w p1)).tail (.mutDeps p.id)
    have h1 := h.coarses s1
    have d1 : c1.dynStates = s.c.dynStates := p1.dyn
    have l1 : s.c.log <:+ (c1.emit (.mutDeps p.id)).log := by rw [← p1.log]; exact List.suffix_cons _ _
    cases ha : c1.artifacts[p.id]? with
    | some v =>
      rw [e1, ha]
      have s2 : Coarses Y s { s with c := ({ c1.emit (.mutDeps p.id) with leafs := c1.leafs.insert p.id } : Cache σ).emit (.mutDeps p.id) } := by
        refine (s1.tail (.prune ({ c1.emit (.mutDeps p.id) with leafs := c1.leafs.insert p.id } : Cache σ) s.w ?_)).tail (.mutDeps p.id)
        exact ⟨rfl, rfl, rfl, fun _ _ h => h, fun _ h => h⟩
      have h2 := h.coarses s2
      have e2 := h2.lookupMut_done (p := p) (c := c1.emit (.mutDeps p.id)) (ord := ord) hl (by
        simp only [invalidateDependents, Cache.emit, n1])
      have ha2 : (({ c1.emit (.mutDeps p.id) with leafs := c1.leafs.insert p.id } : Cache σ).emit (.mutDeps p.id)).artifacts[p.id]? = some v := ha
      rw [ha2] at e2
      simp only [e2]
      split
      · next c' hw => exact .of_eq hd ((writeArt_frame hw).1.trans d1)
      · exact .of_eq hd d1
    | none =>
      rw [e1, ha]
      simp only
      have hbr := hb.ran p _ h1 hl ha
      have hx : StateKept s (bld p { s with c := c1.emit (.mutDeps p.id) }).1 a d :=
        (StateKept.of_ran hbr (show HasState { s with c := c1.emit (.mutDeps p.id) } a d from by
          unfold HasState; simp only [Cache.emit, d1]; exact hd)).before l1
      have hok := hb.ok p _ h1 hl ha
      generalize bld p { s with c := c1.emit (.mutDeps p.id) } = x at hbr hx hok
      obtain ⟨s', r⟩ := x
      rcases r with (e | v) | k | _ | _
      · exact hx
      · obtain ⟨hv, ht⟩ := hok v rfl
        simp only [fresh, ht, if_true]
        split
        · next c' hw => exact hx.after (writeArt_frame hw).1 (writeArt_frame hw).2
        · exact hx
      · exact hx
      · exact hx
      · exact hx
  · rw [e1]
    exact .of_eq hd p1.dyn

theorem collectEachD_states (D : Destructors σ) (ord : HashOrder) (l : List Id) (c : Cache σ) (m : Shared σ) {a : Id} (ha : a ∉ l) :
    (collectEachD Y D ord l c m).1.dynStates[a]? = c.dynStates[a]? := by
  induction l generalizing c m with
  | nil => rfl
  | cons x rest ih =>
    rw [collectEachD]
    obtain ⟨i1, _, _, _⟩ := invalidateByIdD_any (Y := Y) D ord x c m
    generalize invalidateByIdD Y D ord x c m = y at i1
    obtain ⟨c1, m1, e⟩ := y
    have hx : a ≠ x := fun h => ha (h ▸ List.mem_cons_self ..)
    have hd : (c1.dynStates.erase x)[a]? = c.dynStates[a]? := by
      have : c1.dynStates = c.dynStates := i1.dyn
      rw [this]; grind
    cases e with
    | panic k => rw [i1.dyn]
    | outOfFuel => rw [i1.dyn]
    | done =>
      simp only
      split
      · exact hd
      · rw [ih _ _ fun h => ha (List.mem_cons_of_mem _ h)]
        exact hd

theorem Safe.gcD_states (h : Safe Y s) (D : Destructors σ) (ord : HashOrder) {a : Id} {d : σ.S} (hd : s.c.dynStates[a]? = some d) :
    (garbageCollectionD Y D ord s).1.dynStates[a]? = some d ∨ Dead s a := by
  unfold garbageCollectionD
  split
  · exact .inl hd
  · split
    · exact .inl hd
    · next l hl =>
      by_cases ha : a ∈ l
      · right
        obtain ⟨_, b, hb, hn⟩ := (selectDead_some _ _ hl a).1 ha
        rintro p rfl
        cases hl : s.live p with
        | false => rfl
        | true =>
          have := h.healthy.heapKnown _ _ _ hb (live_iff.1 hl)
          subst this
          exact absurd (live_iff.1 hl) hn
      · left
        rw [collectEachD_states D ord l s.c s.mem ha]; exact hd

theorem purgeD_states (D : Destructors σ) (ord : HashOrder) (p : Promise σ) (c : Cache σ) (m : Shared σ) {a : Id} (ha : a ≠ p.id) :
    (Daab.purgeD Y D ord p c m).1.dynStates[a]? = c.dynStates[a]? := by
  have hd : (c.dynStates.erase p.id)[a]? = c.dynStates[a]? := by grind
  unfold Daab.purgeD
  simp only
  split
  · rfl
  · split
    · exact hd
    · next m2 _ =>
      obtain ⟨i1, _, _, _⟩ := invalidateByIdD_any (Y := Y) D ord p.id
        (({ c with known := c.known.erase p.id, artifacts := c.artifacts.erase p.id, dynStates := c.dynStates.erase p.id } : Cache σ).emit (.purged p)) m2
      simp only [Cache.emit] at i1 ⊢
      generalize invalidateByIdD Y D ord p.id _ m2 = y at i1
      obtain ⟨c1, m1, e⟩ := y
      have : c1.dynStates = c.dynStates.erase p.id := i1.dyn
      cases e <;> simp only [this] <;> exact hd

/-- How an operation may treat the state `d` of `a`. -/
def StateFate (op : Op σ) (s s' : St σ) (a : Id) (d : σ.S) : Prop :=
  StateKept s s' a d ∨ (∃ p f, op = .dynStateMut p f ∧ p.id = a ∧ ∃ d', HasState s' a d') ∨
    (∃ p, op = .purge p ∧ p.id = a) ∨ op = .clearAll ∨ (op = .gc ∧ Dead s a)

theorem StateFate.of_cache {op : Op σ} {s1 s2 : St σ} {a : Id} {d : σ.S} (h : StateFate op s s1 a d) (e : s1.c = s2.c) :
    StateFate op s s2 a d := by
  simp only [StateFate, StateKept, HasState, Since] at h ⊢
  rw [← e]
  exact h

theorem Safe.stepD_states (h : Safe Y s) (D : Destructors σ) (ord : HashOrder) (op : Removal σ) {a : Id} {d : σ.S}
    (hd : HasState s a d) : StateFate op.op s (Daab.stepD Y D ord s op).1 a d := by
  rcases stepD_cases (Y := Y) (s := s) D ord op with e | e
  · rw [e]; exact .inl (.inl hd)
  · rw [e]
    cases op with
    | invalidate p =>
      obtain ⟨i1, _, _, _⟩ := invalidateByIdD_any (Y := Y) D ord p.id s.c s.mem
      refine .inl (.of_eq hd ?_)
      simp only [invalidateD]
      generalize invalidateByIdD Y D ord p.id s.c s.mem = y at i1
      obtain ⟨c1, m1, e⟩ := y
      cases e <;> exact i1.dyn
    | purge p =>
      by_cases ha : a = p.id
      · exact .inr (.inr (.inl ⟨p, rfl, ha.symm⟩))
      · exact .inl (.inl (by unfold HasState; simp only [Shared.st_c, purgeD_states D ord p s.c s.mem ha]; exact hd))
    | clearArtifacts =>
      refine .inl (.of_eq hd ?_)
      simp only [clearArtifactsD]
      split <;> rfl
    | clearAll => exact .inr (.inr (.inr (.inl rfl)))
    | gc =>
      rcases h.gcD_states D ord hd with h | h
      · exact .inl (.inl h)
      · exact .inr (.inr (.inr (.inr ⟨rfl, h⟩)))

theorem Safe.setState_states (h : Safe Y s) {p : Promise σ} (hl : s.live p = true) (f : σ.S → σ.S) {a : Id} {d : σ.S}
    (hd : HasState s a d) :
    let s' := (match ensureDyn Y p s with
        | (s, .val d) =>
          if Y.stTy (f d) = Y.sty p.b then
            (s.onCache fun c => { c with dynStates := c.dynStates.insert p.id (f d) }.emit (.setDyn p (f d)), .val d)
          else (s, .stuck)
        | r => r : St σ × Res σ.S).1
    StateKept s s' a d ∨ p.id = a ∧ ∃ d', HasState s' a d' := by
  have hen := ensureDyn_ran h (p := p) hl
  generalize ensureDyn Y p s = x at hen
  obtain ⟨s1, r⟩ := x
  obtain ⟨hr, hk, ha, hdv⟩ := hen
  have h1 := StateKept.of_ran hr hd
  cases r with
  | val d0 =>
    simp only
    split
    · by_cases hap : p.id = a
      · right
        refine ⟨hap, f d0, ?_⟩
        subst hap
        simp [HasState, St.onCache, Cache.emit]
      · left
        have e : (s1.c.dynStates.insert p.id (f d0))[a]? = s1.c.dynStates[a]? := by grind
        rcases h1 with h | ⟨⟨d', h1⟩, q, hq, new, e1, e2⟩
        · left; simp only [HasState, St.onCache, Cache.emit, e]; exact h
        · right
          refine ⟨⟨d', ?_⟩, q, hq, .setDyn p (f d0) :: new, ?_, List.mem_cons_of_mem _ e2⟩
          · simp only [HasState, St.onCache, Cache.emit, e]; exact h1
          · simp only at e1
            simp only [St.onCache, Cache.emit, e1, List.cons_append]
    · exact .inl h1
  | panic k => exact .inl h1
  | stuck => exact .inl h1
  | overflow => exact .inl h1

theorem Safe.exec_states (h : Safe Y s) (n : Nat) (ord : HashOrder) (op : Op σ)
    (hl : ∀ p, op.promise? = some p → s.live p = true) {a : Id} {d : σ.S}
    (hd : HasState s a d) : StateFate op s (Daab.exec Y n ord s op).1 a d := by
  have hst : Daab.step Y n ord s op = Daab.exec Y n ord s op := by
    unfold Daab.step
    cases hp : op.promise? with
    | none => rfl
    | some p => simp only [hl p hp, if_true]
  have reads : op.readsOrBuilds → StateFate op s (Daab.exec Y n ord s op).1 a d := fun ho => by
    have := h.reads ho (.plain n ord)
    rw [hst] at this
    exact .inl (.of_ran this hd)
  have rem : ∀ r : Removal σ, r.op = op → StateFate op s (Daab.exec Y n ord s op).1 a d := by
    rintro r rfl
    have h1 := h.stepD_states (idle σ) ord r hd
    obtain ⟨⟨h2, _⟩ | ⟨_, ⟨_, _, _, h2⟩, _⟩, _⟩ := stepD_orBroke (Y := Y) (idle σ) n ord s r
    · rw [hst] at h2
      exact h1.of_cache h2
    · cases h2
  cases op with
  | get how p => exact reads trivial
  | lookup how p => exact reads trivial
  | dynState p => exact reads trivial
  | getDynState p => exact reads trivial
  | isKnown p => exact reads trivial
  | numKnown => exact reads trivial
  | invalidate p => exact rem (.invalidate p) rfl
  | purge p => exact rem (.purge p) rfl
  | clearArtifacts => exact rem .clearArtifacts rfl
  | clearAll => exact rem .clearAll rfl
  | gc => exact rem .gc rfl
  | getMut p f => exact .inl (h.getMutWrite_states (getA_okI Y (Safe Y) n).2 ord (hl p rfl) f hd)
  | lookupMut p f =>
    have hl := hl p rfl
    simp only [Daab.exec]
    rcases h.lookupMut ord hl with ⟨c1, e1, p1, n1⟩ | ⟨c1, k, e1, p1, hk⟩
    · rw [e1]
      cases ha : c1.artifacts[p.id]? with
      | none => exact .inl (.of_eq hd p1.dyn)
      | some v =>
        simp only
        split
        · next c' hw => exact .inl (.of_eq hd ((writeArt_frame hw).1.trans p1.dyn))
        · exact .inl (.of_eq hd p1.dyn)
    · rw [e1]; exact .inl (.of_eq hd p1.dyn)
  | dynStateMut p f =>
    have hl := hl p rfl
    simp only [Daab.exec, Daab.dynStateMut]
    rcases invalidate_any (Y := Y) s.w ord p s.c with ⟨c1, e1, p1, a1⟩ | ⟨c1, k, e1, p1, hk⟩
    · have s1 : Coarses Y s { s with c := c1.emit (.invalidate p) } := invalidated_coarses s.w p1 (a1 _ (hit_refl _))
      simp only [e1]
      have l1 : s.c.log <:+ (c1.emit (.invalidate p)).log := by rw [← p1.log]; exact List.suffix_cons _ _
      rcases (h.coarses s1).setState_states (p := p) (a := a) (d := d) hl f
        (by unfold HasState; simp only [Cache.emit, p1.dyn]; exact hd) with h1 | ⟨h1, h2⟩
      · exact .inl (h1.before l1)
      · exact .inr (.inl ⟨p, f, rfl, h1, h2⟩)
    · simp only [e1]
      exact .inl (.of_eq hd p1.dyn)
  | alloc p =>
    simp only [Daab.exec]
    cases ha : allocB p s with
    | none => exact .inl (.inl hd)
    | some s' => exact .inl (.of_eq hd (by simp only [allocB_c ha]))
  | free a => exact .inl (.of_eq hd rfl)
  | world f => exact .inl (.of_eq hd rfl)

theorem Safe.went_states (h : Safe Y s) {op : Op σ} {r : Res (Ans σ)} (hw : Went Y s op s' r) {a : Id} {d : σ.S}
    (hd : HasState s a d) : StateFate op s s' a d := by
  cases hw with
  | plain n ord =>
    rcases step_cases (Y := Y) (s := s) n ord op with ⟨hl, e⟩ | e
    · rw [e]; exact h.exec_states n ord op hl hd
    · rw [e]; exact .inl (.inl hd)
  | hooked D n ord =>
    rcases stepH_cases (Y := Y) (s := s) D n ord op with ⟨hl, e⟩ | e
    swap
    · rw [e]; exact .inl (.inl hd)
    rw [e]
    by_cases hdp : op.deep = false
    · obtain ⟨w, e1, e2⟩ := execH_shallow (Y := Y) (s := s) D n ord op hdp
      rw [e1]; exact h.exec_states n ord op hl hd
    · cases op with
      | get how p =>
        have := StateKept.of_ran ((getAH_okI Y (Safe Y) D n).1 how p s h) hd
        exact .inl this
      | getMut p f => exact .inl (h.getMutWrite_states (getAH_okI Y (Safe Y) D n).2 ord (hl p rfl) f hd)
      | dynStateMut p f =>
        have hl := hl p rfl
        simp only [Daab.execH, Daab.dynStateMutH]
        rcases invalidate_any (Y := Y) s.w ord p s.c with ⟨c1, e1, p1, a1⟩ | ⟨c1, k, e1, p1, hk⟩
        · have s1 : ∀ w, Coarses Y s { s with c := c1.emit (.invalidate p), w := w } :=
            fun w => invalidated_coarses w p1 (a1 _ (hit_refl _))
          have l1 : s.c.log <:+ (c1.emit (.invalidate p)).log := by rw [← p1.log]; exact List.suffix_cons _ _
          simp only [e1, callHook]
          split
          · exact .inl (.of_eq hd p1.dyn)
          · next w _ =>
            rcases (h.coarses (s1 w)).setState_states (p := p) (a := a) (d := d) hl f
              (by unfold HasState; simp only [Cache.emit, p1.dyn]; exact hd) with h1 | ⟨h1, h2⟩
            · exact .inl (h1.before l1)
            · exact .inr (.inl ⟨p, f, rfl, h1, h2⟩)
        · simp only [e1]
          exact .inl (.of_eq hd p1.dyn)
      | _ => exact absurd rfl hdp

theorem Safe.states (h : Safe Y s) {op : Op σ} {r : Res (Ans σ)} (hs : Does Y s op s' r) {a : Id} {d : σ.S}
    (hd : HasState s a d) : StateFate op s s' a d := by
  cases hs with
  | went hw => exact h.went_states hw hd
  | dropping D H ord op hP hl =>
    obtain ⟨w, e, _⟩ := stepDH_or (Y := Y) D H ord s op
    rw [e]
    exact h.stepD_states D ord op hd
  | mutating D H n ord op hP hS =>
    rcases stepMH_or (Y := Y) D H n ord s op hS with ⟨m, hm, e⟩ | ⟨c, m, hm, e, _, hp⟩
    · rw [e]
      have hw : Coarses Y s (m.st s.c) := OwnSteps.coarses (hm.1 hP)
      rcases (h.coarses hw).went_states (.hooked H n ord) hd with h | h | h | h | ⟨h, _⟩
      · exact .inl h
      · exact .inr (.inl h)
      · exact .inr (.inr (.inl h))
      · exact .inr (.inr (.inr (.inl h)))
      · cases op <;> cases h
    · rw [e]; exact .inl (.of_eq hd hp.dyn)

end Daab
