import Verif.Refine
import Verif.Demo

/-!
# C56: the cache behaves like the ideal cache

`Ideal.lean` is the specification: a cache defined by what it remembers and what each operation does to that, in
a page, without the bookkeeping of the implementation.
-/

open Std

namespace Daab

variable {σ : Sig} {Y : Sys σ} {s : St σ}

/-- **C56** One operation: the cache answers what the ideal cache answers (the same artifact, error, state,
number, panic or exhaustion of the stack), and afterwards the two agree again on everything they remember,
unless the operation was the mutable access of finding 2 that panics. -/
theorem C56_operation (h : Reachable Y s) (n : Nat) (ord : HashOrder) (op : Op σ)
    (hs : (step Y n ord s op).2 ≠ .stuck) :
    (Ideal.step Y n (ideal s) op).2 = (step Y n ord s op).2 ∧
    ((step Y n ord s op).2 ≠ .panic .noCounterpart →
      (Ideal.step Y n (ideal s) op).1 = ideal (step Y n ord s op).1) := by
  unfold step at hs ⊢
  cases hp : op.promise? with
  | none =>
    rw [hp] at hs
    exact exec_ideal h n ord op (by rw [hp]; nofun) hs
  | some p =>
    rw [hp] at hs
    cases hl : s.live p with
    | false => simp [hl] at hs
    | true =>
      simp only [hl, if_true] at hs ⊢
      exact exec_ideal h n ord op (by intro q hq; rw [hp] at hq; cases hq; exact hl) hs

/-- For a `get` that builds, and for the mutable access that panics (finding 2). -/
example : (Ideal.step Demo.Y 9 (ideal Demo.s1) (.lookupMut (Demo.P 0) id)).2 = .panic .noCounterpart ∧
    (Ideal.step Demo.Y 9 (ideal Demo.s1) (.invalidate (Demo.P 0))).1 =
      ideal (step Demo.Y 9 Demo.ord Demo.s1 (.invalidate (Demo.P 0))).1 :=
  ⟨(C56_operation Demo.reach1 9 Demo.ord (.lookupMut (Demo.P 0) id) (fun h => by cases h)).1.trans rfl,
   (C56_operation Demo.reach1 9 Demo.ord (.invalidate (Demo.P 0)) (fun h => by cases h)).2 (fun h => by cases h)⟩

/-- The operations of a history, without the hash orders. -/
def History.ops (hist : History σ) : List (Nat × Op σ) := hist.map fun x => (x.1, x.2.2)

theorem play_ideal (hist : History σ) (h : Reachable Y s) (hg : ∀ r ∈ (play Y hist s).2, r.goesOn) :
    Ideal.play Y hist.ops (ideal s) = (ideal (play Y hist s).1, (play Y hist s).2) := by
  induction hist generalizing s with
  | nil => rfl
  | cons x hist ih =>
    obtain ⟨n, ord, op⟩ := x
    simp only [play] at hg ⊢
    have hg1 : (step Y n ord s op).2.goesOn := hg _ (by simp)
    obtain ⟨h1, h2⟩ := C56_operation h n ord op (by intro e; rw [e] at hg1; exact hg1)
    have h2 := h2 (by intro e; rw [e] at hg1; exact hg1 rfl)
    have := ih (.step n ord op h hg1) (fun r hr => hg r (List.mem_cons_of_mem _ hr))
    simp only [History.ops, List.map_cons, Ideal.play] at this ⊢
    rw [h1, h2, this]

theorem ideal_new (w : σ.W) : ideal (St.new w) = Ideal.empty (fun _ => none) w := by
  apply Ideal.ext' <;> intros <;> simp [ideal, St.new, Ideal.empty, UsesNow, Known]

/-- **C56** Whole histories: a new cache gives, operation by operation, the answers of the ideal cache that
remembers nothing, whatever the builders do and whatever the hash orders are. -/
theorem C56_history (w : σ.W) (hist : History σ) (hg : ∀ r ∈ (play Y hist (St.new w)).2, r.goesOn) :
    (Ideal.play Y hist.ops (Ideal.empty (fun _ => none) w)).2 = (play Y hist (St.new w)).2 ∧
    (Ideal.play Y hist.ops (Ideal.empty (fun _ => none) w)).1 = ideal (play Y hist (St.new w)).1 := by
  rw [← ideal_new, play_ideal hist (.new w) hg]
  exact ⟨rfl, rfl⟩

/-- **C56** Nothing but what the ideal cache remembers matters: two caches (of programs with the same builders,
however they got there) that remember the same give the same answers from then on. -/
theorem C56_only_this_matters {t : St σ} (h : Reachable Y s) (h' : Reachable Y t) (he : ideal s = ideal t)
    {hist hist' : History σ} (hops : hist.ops = hist'.ops) (hg : ∀ r ∈ (play Y hist s).2, r.goesOn)
    (hg' : ∀ r ∈ (play Y hist' t).2, r.goesOn) : (play Y hist s).2 = (play Y hist' t).2 := by
  have h1 := play_ideal hist h hg
  have h2 := play_ideal hist' h' hg'
  rw [he, hops, h2] at h1
  exact (congrArg Prod.snd h1).symm

/-! ## The hypotheses are met -/

namespace Demo

/-- A history with builds, a changed dynamic state, lookups, mutable access, a failing builder, purge, dropped
blueprints and garbage collection. -/
def long : History sig :=
  ([.alloc (P 0), .alloc (P 1), .alloc (P 2), .alloc (P 6), .get .bin (P 2), .numKnown, .dynStateMut (P 0) (· + 3),
    .lookup .ref (P 2), .lookup .cloned (P 1), .getDynState (P 0), .get .cloned (P 1), .get .bin (P 6),
    .lookupMut (P 1) (· + 1), .lookup .bin (P 1), .isKnown (P 2), .purge (P 6), .free 12, .clearArtifacts,
    .get .ref (P 0), .getMut (P 1) (· + 1), .invalidate (P 1), .free 11, .numKnown, .dynState (P 0), .world (· + 1),
    .clearAll, .gc, .numKnown] :
    List (Op sig)).map fun o => ((9 : Nat), ord, o)

end Demo

/-- C56_history: the hypothesis is met by this history of 28 operations; so these are the answers of the ideal
cache. -/
example : (∀ r ∈ (play Demo.Y Demo.long (St.new 0)).2, r.goesOn) ∧ Demo.long.length = 28 := by
  refine ⟨by decide, rfl⟩

example : (Ideal.play Demo.Y Demo.long.ops (Ideal.empty (fun _ => none) 0)).2 =
    [.val .unit, .val .unit, .val .unit, .val .unit, .val (.art (.ok 100)), .val (.nat 3), .val (.state 0),
     .val (.optArt none), .val (.optArt none), .val (.optState (some 3)), .val (.art (.ok 103)),
     .val (.art (.error 6)), .val (.optArt (some 103)), .val (.optArt (some 104)), .val (.bool true), .val .unit,
     .val .unit, .val .unit, .val (.art (.ok 3)), .val (.art (.ok 103)), .val .unit, .val .unit, .val (.nat 3),
     .val (.state 3), .val .unit, .val .unit, .val .unit, .val (.nat 0)] :=
  (C56_history (Y := Demo.Y) 0 Demo.long (by decide)).1.trans rfl

/-- C56_only_this_matters: two different histories after which the same is remembered; a lookup and getting an
artifact that is cached leave no trace. -/
example : ∃ s t : St Demo.sig, Reachable Demo.Y s ∧ Reachable Demo.Y t ∧ ideal s = ideal t ∧ Cached s 12 110 ∧
    t = (step Demo.Y 9 Demo.ord (step Demo.Y 9 Demo.ord s (.get .bin (Demo.P 2))).1 (.lookup .ref (Demo.P 1))).1 :=
  ⟨Demo.s1, _, Demo.reach1, .step 9 Demo.ord (.lookup .ref (Demo.P 1))
    (.step 9 Demo.ord (.get .bin (Demo.P 2)) Demo.reach1 (by decide)) (by decide), rfl, by unfold Cached; decide, rfl⟩

end Daab
