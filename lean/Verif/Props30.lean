import Verif.Props29
import Verif.Props21
import Mathlib.Order.Interval.Finset.Nat

/-!
# C71: builders that artifacts and dynamic states refer to, and several garbage collections

`cache.rs` 793-797: "Only those Builders will be cleaned up, for which all Cans and Bins (e.g. `Rc`s) have been dropped. If Artifacts
or dynamic states refers to Builders, those Builders might need additional GC cycles to be cleaned up, or in case of cyclic
dependencies (e.g. between dynamic states and Artifacts) might never be cleaned by this GC."
-/

set_option autoImplicit false
open Std

namespace Daab

variable {σ : Sig} {Y : Sys σ} {s : St σ}

/-! ## Specification -/

/-- Which builders (by address) the values contain blueprints of, that is strong references (`Rc`, `Arc`) to. -/
structure Refs (σ : Sig) where
  art : σ.V → Id → Prop
  state : σ.S → Id → Prop
  builder : σ.B → Id → Prop

/-- There is a strong reference to the builder `a`: the program has one (`R a`), or it is in an artifact or a dynamic state in the
cache, or in a builder to which there is a strong reference. -/
inductive Referred (O : Refs σ) (R : Id → Prop) (s : St σ) : Id → Prop
  | program {a : Id} : R a → Referred O R s a
  | artifact {u a : Id} {v : σ.V} : Cached s u v → O.art v a → Referred O R s a
  | state {u a : Id} {d : σ.S} : HasState s u d → O.state d a → Referred O R s a
  | builder {x a : Id} {b : σ.B} : Referred O R s x → s.heap[x]? = some b → O.builder b a → Referred O R s a

/-- Builders are alive exactly if there is a strong reference to them (what `Rc` and `Arc` do; there are no cycles
of builders that contain each other, and nothing was leaked).  What the program has got out of the cache belongs to it: `R` includes
the builders that artifacts refer to which it still has. -/
def Counted (O : Refs σ) (R : Id → Prop) (s : St σ) : Prop := ∀ a, ¬ Dead s a ↔ Referred O R s a

/-- The builders to which there is no strong reference are dropped: what the destructors of `Rc` and `Arc` do on the way
from `s` to `s'`.  (They may also change the outside world.) -/
structure LetGo (O : Refs σ) (R : Id → Prop) (s s' : St σ) : Prop where
  cache : s'.c = s.c
  born : s'.born = s.born
  heap : ∀ (a : Id) b, s'.heap[a]? = some b ↔ s.heap[a]? = some b ∧ Referred O R s a

/-- `k` times: a garbage collection that returns; with what it removes from the cache, the blueprints in it are dropped. -/
inductive Rounds (Y : Sys σ) (O : Refs σ) (R : Id → Prop) : Nat → St σ → St σ → Prop
  | none (s : St σ) : Rounds Y O R 0 s s
  | round {k : Nat} {s s1 s2 s3 : St σ} (n : Nat) (ord : HashOrder) : step Y n ord s .gc = (s1, .val .unit) → LetGo O R s1 s2 →
      Rounds Y O R k s2 s3 → Rounds Y O R (k + 1) s s3

/-- The builder `x` contains a blueprint of `a`, directly or in other builders (or is `a`). -/
def Contains (O : Refs σ) (s : St σ) : Id → Id → Prop :=
  Relation.ReflTransGen fun x y => ∃ b, s.heap[x]? = some b ∧ O.builder b y

/-- The program refers to `a`, directly or through builders. -/
def ByProgram (O : Refs σ) (R : Id → Prop) (s : St σ) (a : Id) : Prop := ∃ r, R r ∧ Contains O s r a

/-- The artifact or the dynamic state of `u` in the cache refers to `a`, directly or through builders. -/
def RefersTo (O : Refs σ) (s : St σ) (u a : Id) : Prop :=
  ∃ x, ((∃ v, Cached s u v ∧ O.art v x) ∨ ∃ d, HasState s u d ∧ O.state d x) ∧ Contains O s x a

/-- The entry of the builder `u` in the cache keeps `a`: `u` is recorded to use `a`, or its artifact or its dynamic state refers
to `a`. -/
def Keeps (O : Refs σ) (s : St σ) (u a : Id) : Prop := UsesNow s u a ∨ RefersTo O s u a

/-- Something to which the program refers, or a cycle of entries that keep each other, keeps `a`. -/
def Retained (O : Refs σ) (R : Id → Prop) (s : St σ) (a : Id) : Prop :=
  ∃ u, Relation.ReflTransGen (Keeps O s) u a ∧ (ByProgram O R s u ∨ Relation.TransGen (Keeps O s) u u)

/-! ## Proofs -/

variable {O : Refs σ} {R : Id → Prop}

theorem Referred.mono {s s' : St σ} (hart : ∀ a v, Cached s' a v → Cached s a v) (hst : ∀ a d, HasState s' a d → HasState s a d)
    (hheap : ∀ (a : Id) b, s'.heap[a]? = some b → s.heap[a]? = some b) {a : Id} (h : Referred O R s' a) : Referred O R s a := by
  induction h with
  | program h => exact .program h
  | artifact h1 h2 => exact .artifact (hart _ _ h1) h2
  | state h1 h2 => exact .state (hst _ _ h1) h2
  | builder _ h2 h3 ih => exact .builder ih (hheap _ _ h2) h3

theorem Referred.contains {x a : Id} (h : Referred O R s x) (hc : Contains O s x a) : Referred O R s a := by
  induction hc with
  | refl => exact h
  | tail _ h2 ih => obtain ⟨b, h3, h4⟩ := h2; exact .builder ih h3 h4

theorem Referred.cases' {a : Id} (h : Referred O R s a) : ByProgram O R s a ∨ ∃ u, RefersTo O s u a := by
  induction h with
  | program h => exact .inl ⟨_, h, .refl⟩
  | artifact h1 h2 => exact .inr ⟨_, _, .inl ⟨_, h1, h2⟩, .refl⟩
  | state h1 h2 => exact .inr ⟨_, _, .inr ⟨_, h1, h2⟩, .refl⟩
  | builder _ h2 h3 ih =>
    rcases ih with ⟨r, h4, h5⟩ | ⟨u, y, h4, h5⟩
    · exact .inl ⟨r, h4, h5.tail ⟨_, h2, h3⟩⟩
    · exact .inr ⟨u, y, h4, h5.tail ⟨_, h2, h3⟩⟩

theorem RefersTo.referred {u a : Id} (h : RefersTo O s u a) : Referred O R s a := by
  obtain ⟨x, h | h, hc⟩ := h
  · obtain ⟨v, h1, h2⟩ := h; exact (Referred.artifact h1 h2).contains hc
  · obtain ⟨d, h1, h2⟩ := h; exact (Referred.state h1 h2).contains hc

theorem ByProgram.referred {a : Id} (h : ByProgram O R s a) : Referred O R s a := by
  obtain ⟨r, h1, h2⟩ := h; exact (Referred.program h1).contains h2

theorem Keeps.known (h : Reachable Y s) {u a : Id} (hk : Keeps O s u a) : Known s u := by
  rcases hk with hk | ⟨x, hk, _⟩
  · exact h.inv.depU _ _ ((usesNow_iff ..).1 hk)
  · rcases hk with ⟨v, hk, _⟩ | ⟨d, hk, _⟩
    · exact h.inv.dynKnown _ (h.inv.artDyn _ ((mem_getElem _ _).2 ⟨v, hk⟩))
    · exact h.inv.dynKnown _ ((mem_getElem _ _).2 ⟨d, hk⟩)

theorem dropped_list (h : Reachable Y s) (l : List Id) : ∃ t, Reachable Y t ∧ t.c = s.c ∧ t.born = s.born ∧
    ∀ (a : Id) b, t.heap[a]? = some b ↔ s.heap[a]? = some b ∧ a ∉ l := by
  induction l with
  | nil => exact ⟨s, h, rfl, rfl, fun a b => by simp⟩
  | cons x l ih =>
    obtain ⟨t, h1, h2, h3, h4⟩ := ih
    refine ⟨_, Reachable.step 0 Demo.ord (.free x) h1 trivial, h2, h3, fun a b => ?_⟩
    simp only [step, Op.promise?, exec, freeB, ExtTreeMap.getElem?_erase]
    split
    · next ha =>
      have : x = a := by simpa using ha
      simp [this]
    · next ha =>
      have : x ≠ a := by simpa using ha
      rw [h4]
      simp [Ne.symm this]

theorem letGo_exists (O : Refs σ) (R : Id → Prop) (h : Reachable Y s) : ∃ t, Reachable Y t ∧ LetGo O R s t := by
  classical
  obtain ⟨t, h1, h2, h3, h4⟩ := dropped_list h (s.heap.keys.filter fun a => ¬ Referred O R s a)
  refine ⟨t, h1, h2, h3, fun a b => ?_⟩
  rw [h4]
  simp only [List.mem_filter, ExtTreeMap.mem_keys, decide_not, Bool.not_eq_eq_eq_not, Bool.not_true, decide_eq_false_iff_not,
    not_and, not_not]
  constructor
  · rintro ⟨h6, h7⟩; exact ⟨h6, h7 ((mem_getElem _ _).2 ⟨b, h6⟩)⟩
  · rintro ⟨h6, h7⟩; exact ⟨h6, fun _ => h7⟩

/-- Dropping builders is something the program can do. -/
theorem LetGo.reachable (h : Reachable Y s) {s' : St σ} (hl : LetGo O R s s') : Reachable Y s' := by
  obtain ⟨t, h1, h2⟩ := letGo_exists O R h
  have hr := Reachable.step 0 Demo.ord (.world fun _ => s'.w) h1 trivial
  have e : s' = (step Y 0 Demo.ord t (.world fun _ => s'.w)).1 := by
    have h5 : s'.heap = t.heap := by
      ext a b
      rw [hl.heap, h2.heap]
    have h6 : s'.c = t.c := by rw [hl.cache, h2.cache]
    have h7 : s'.born = t.born := by rw [hl.born, h2.born]
    obtain ⟨c', w', heap', born'⟩ := s'
    simp only at h5 h6 h7
    subst h5 h6 h7
    rfl
  rw [e]; exact hr

/-- What a round does. -/
structure RoundDoes (O : Refs σ) (R : Id → Prop) (s s' : St σ) : Prop where
  known : ∀ a, Known s' a ↔ Known s a ∧ ¬ (Known s a ∧ Dead s a ∧ ∀ u, ¬ UsesNow s u a)
  art : ∀ a v, Cached s' a v ↔ Cached s a v ∧ ¬ (Known s a ∧ Dead s a ∧ ∀ u, ¬ UsesNow s u a)
  state : ∀ a d, HasState s' a d ↔ HasState s a d ∧ ¬ (Known s a ∧ Dead s a ∧ ∀ u, ¬ UsesNow s u a)
  uses : ∀ u a, UsesNow s' u a ↔ UsesNow s u a ∧ ¬ (Known s u ∧ Dead s u ∧ ∀ w, ¬ UsesNow s w u)
  heap : ∀ (a : Id) b, s'.heap[a]? = some b ↔ s.heap[a]? = some b ∧ Referred O R s' a

theorem RoundDoes.of (h : Reachable Y s) {n : Nat} {ord : HashOrder} {s1 s2 : St σ} (hg : step Y n ord s .gc = (s1, .val .unit))
    (hl : LetGo O R s1 s2) : RoundDoes O R s s2 ∧ Reachable Y s1 := by
  obtain ⟨h1, h2, h3, h4⟩ := C20_gc_collects h hg
  have hheap : s1.heap = s.heap := by
    have := (C19_gc_keeps_live h n ord).2.2.1
    rwa [hg] at this
  have hr1 : Reachable Y s1 := by
    have := Reachable.step n ord .gc h (by rw [hg]; trivial)
    rwa [hg] at this
  -- there are the same references before and after the builders without references are dropped
  have href : ∀ a, Referred O R s1 a ↔ Referred O R s2 a := by
    intro a
    constructor
    · intro ha
      induction ha with
      | program h => exact .program h
      | artifact h1 h2 => exact .artifact (by unfold Cached; rw [hl.cache]; exact h1) h2
      | state h1 h2 => exact .state (by unfold HasState; rw [hl.cache]; exact h1) h2
      | builder h1 h2 h3 ih => exact .builder ih ((hl.heap _ _).2 ⟨h2, h1⟩) h3
    · refine Referred.mono ?_ ?_ ?_
      · intro a v; unfold Cached; rw [hl.cache]; exact id
      · intro a v; unfold HasState; rw [hl.cache]; exact id
      · intro a b hb; exact ((hl.heap a b).1 hb).1
  refine ⟨⟨?_, ?_, ?_, ?_, ?_⟩, hr1⟩
  · intro a; unfold Known; rw [hl.cache]; exact h1 a
  · intro a v; unfold Cached; rw [hl.cache]; exact h2 a v
  · intro a d; unfold HasState; rw [hl.cache]; exact h3 a d
  · intro u a; unfold UsesNow; rw [hl.cache]; exact h4 u a
  · intro a b; rw [hl.heap, hheap, href]

namespace RoundDoes

variable {s' : St σ}

theorem heap_mono (h : RoundDoes O R s s') {a : Id} {b : σ.B} (hb : s'.heap[a]? = some b) : s.heap[a]? = some b := ((h.heap a b).1 hb).1

theorem referred_mono (h : RoundDoes O R s s') {a : Id} (ha : Referred O R s' a) : Referred O R s a :=
  ha.mono (fun a v hv => ((h.art a v).1 hv).1) (fun a v hv => ((h.state a v).1 hv).1) (fun _ _ => h.heap_mono)

theorem contains_mono (h : RoundDoes O R s s') {x a : Id} (hc : Contains O s' x a) : Contains O s x a :=
  Relation.ReflTransGen.mono (fun _ _ ⟨b, h1, h2⟩ => ⟨b, h.heap_mono h1, h2⟩) _ _ hc

theorem byProgram_mono (h : RoundDoes O R s s') {a : Id} (ha : ByProgram O R s' a) : ByProgram O R s a := by
  obtain ⟨r, h1, h2⟩ := ha; exact ⟨r, h1, h.contains_mono h2⟩

theorem keeps_mono (h : RoundDoes O R s s') {u a : Id} (ha : Keeps O s' u a) : Keeps O s u a := by
  rcases ha with ha | ⟨x, ha, hc⟩
  · exact .inl ((h.uses u a).1 ha).1
  · refine .inr ⟨x, ?_, h.contains_mono hc⟩
    rcases ha with ⟨v, h1, h2⟩ | ⟨d, h1, h2⟩
    · exact .inl ⟨v, ((h.art u v).1 h1).1, h2⟩
    · exact .inr ⟨d, ((h.state u d).1 h1).1, h2⟩

theorem retained_mono (h : RoundDoes O R s s') {a : Id} (ha : Retained O R s' a) : Retained O R s a := by
  obtain ⟨u, h1, h2⟩ := ha
  refine ⟨u, Relation.ReflTransGen.mono (fun _ _ => h.keeps_mono) _ _ h1, ?_⟩
  rcases h2 with h2 | h2
  · exact .inl (h.byProgram_mono h2)
  · exact .inr (Relation.TransGen.mono (fun _ _ => h.keeps_mono) _ _ h2)

theorem counted (h : RoundDoes O R s s') (hc : Counted O R s) : Counted O R s' := by
  intro a
  constructor
  · intro hd
    have : s'.heap[a]? ≠ none := fun e => hd (dead_iff.2 e)
    obtain ⟨b, hb⟩ := Option.ne_none_iff_exists'.1 this
    exact ((h.heap a b).1 hb).2
  · intro ha hd
    have h1 := (hc a).2 (h.referred_mono ha)
    have : s.heap[a]? ≠ none := fun e => h1 (dead_iff.2 e)
    obtain ⟨b, hb⟩ := Option.ne_none_iff_exists'.1 this
    have := (h.heap a b).2 ⟨hb, ha⟩
    rw [dead_iff.1 hd] at this
    cases this

end RoundDoes

/-- What is kept is not garbage. -/
theorem Retained.not_garbage (hc : Counted O R s) {a : Id} (h : Retained O R s a) : ¬ (Known s a ∧ Dead s a ∧ ∀ u, ¬ UsesNow s u a) := by
  rintro ⟨_, hd, hn⟩
  have key : ∀ u, ¬ Keeps O s u a := by
    rintro u (hu | hu)
    · exact hn u hu
    · exact (hc a).2 hu.referred hd
  obtain ⟨u, h1, h2⟩ := h
  rcases Relation.ReflTransGen.cases_tail h1 with rfl | ⟨x, _, hx⟩
  · rcases h2 with h2 | h2
    · exact (hc _).2 h2.referred hd
    · obtain ⟨x, _, hx⟩ := Relation.TransGen.tail'_iff.1 h2
      exact key x hx
  · exact key x hx

theorem RoundDoes.contains_keep {s' : St σ} (h : RoundDoes O R s s') {x a : Id} (hx : Referred O R s' x) (hc : Contains O s x a) :
    Contains O s' x a ∧ Referred O R s' a := by
  induction hc with
  | refl => exact ⟨.refl, hx⟩
  | tail _ h2 ih =>
    obtain ⟨b, h3, h4⟩ := h2
    have h5 := (h.heap _ b).2 ⟨h3, ih.2⟩
    exact ⟨ih.1.tail ⟨b, h5, h4⟩, .builder ih.2 h5 h4⟩

theorem RoundDoes.byProgram_keep {s' : St σ} (h : RoundDoes O R s s') {a : Id} (ha : ByProgram O R s a) : ByProgram O R s' a := by
  obtain ⟨r, h1, h2⟩ := ha; exact ⟨r, h1, (h.contains_keep (.program h1) h2).1⟩

theorem RoundDoes.keeps_keep {s' : St σ} (h : RoundDoes O R s s') (hc : Counted O R s) {u a : Id} (hu : Retained O R s u)
    (hk : Keeps O s u a) : Keeps O s' u a := by
  have hn := hu.not_garbage hc
  rcases hk with hk | ⟨x, hk, hx⟩
  · exact .inl ((h.uses u a).2 ⟨hk, hn⟩)
  · rcases hk with ⟨v, h1, h2⟩ | ⟨d, h1, h2⟩
    · have h3 := (h.art u v).2 ⟨h1, hn⟩
      exact .inr ⟨x, .inl ⟨v, h3, h2⟩, (h.contains_keep (.artifact h3 h2) hx).1⟩
    · have h3 := (h.state u d).2 ⟨h1, hn⟩
      exact .inr ⟨x, .inr ⟨d, h3, h2⟩, (h.contains_keep (.state h3 h2) hx).1⟩

theorem RoundDoes.retained_keep {s' : St σ} (h : RoundDoes O R s s') (hc : Counted O R s) {a : Id} (ha : Retained O R s a) : Retained O R s' a := by
  obtain ⟨u, h1, h2⟩ := ha
  have path : ∀ x, Relation.ReflTransGen (Keeps O s) u x → Relation.ReflTransGen (Keeps O s') u x := by
    intro x hx
    induction hx with
    | refl => exact .refl
    | tail h3 h4 ih => exact ih.tail (h.keeps_keep hc ⟨u, h3, h2⟩ h4)
  refine ⟨u, path a h1, ?_⟩
  by_cases hp : ByProgram O R s u
  · exact .inl (h.byProgram_keep hp)
  · obtain ⟨x, hx, hxu⟩ := Relation.TransGen.tail'_iff.1 (h2.resolve_left hp)
    exact .inr (Relation.TransGen.tail' (path x hx) (h.keeps_keep hc ⟨u, hx, h2⟩ hxu))

/-- `a` goes within `k + 1` rounds. -/
def Doomed (O : Refs σ) (R : Id → Prop) (s : St σ) : Nat → Id → Prop
  | 0, a => ¬ ByProgram O R s a ∧ ∀ u, ¬ Keeps O s u a
  | k + 1, a => ¬ ByProgram O R s a ∧ ∀ u, Keeps O s u a → Doomed O R s k u

theorem Doomed.goes {s' : St σ} (h : RoundDoes O R s s') (hc : Counted O R s) {a : Id} (hd : Doomed O R s 0 a) : ¬ Known s' a := by
  intro hk
  obtain ⟨h1, h2⟩ := (h.known a).1 hk
  refine h2 ⟨h1, ?_, fun u hu => hd.2 u (.inl hu)⟩
  by_contra hn
  rcases ((hc a).1 hn).cases' with h3 | ⟨u, h3⟩
  · exact hd.1 h3
  · exact hd.2 u (.inr h3)

theorem Doomed.next {s' : St σ} (h : RoundDoes O R s s') (hc : Counted O R s) (hr : Reachable Y s') {k : Nat} {a : Id}
    (hd : Doomed O R s (k + 1) a) : Doomed O R s' k a := by
  induction k generalizing a with
  | zero =>
    refine ⟨fun hp => hd.1 (h.byProgram_mono hp), fun u hu => ?_⟩
    exact (hd.2 u (h.keeps_mono hu)).goes h hc (hu.known hr)
  | succ k ih =>
    exact ⟨fun hp => hd.1 (h.byProgram_mono hp), fun u hu => ih (hd.2 u (h.keeps_mono hu))⟩

open Classical in
/-- What keeps `a`, directly or through others. -/
noncomputable def keepersOf (O : Refs σ) (s : St σ) (a : Id) : Finset Id :=
  s.c.known.keys.toFinset.filter fun u => Relation.TransGen (Keeps O s) u a

theorem mem_keepersOf (h : Reachable Y s) {a u : Id} : u ∈ keepersOf O s a ↔ Relation.TransGen (Keeps O s) u a := by
  classical
  simp only [keepersOf, Finset.mem_filter, List.mem_toFinset, ExtTreeMap.mem_keys, and_iff_right_iff_imp]
  intro hu
  obtain ⟨x, hx, _⟩ := Relation.TransGen.head'_iff.1 hu
  exact hx.known h

theorem keepersOf_card (h : Reachable Y s) {a : Id} (hk : Known s a) (ha : ¬ Retained O R s a) :
    (keepersOf O s a).card < numKnown s.c := by
  classical
  have h1 : keepersOf O s a ⊂ s.c.known.keys.toFinset := by
    refine (Finset.ssubset_iff_of_subset (Finset.filter_subset _ _)).2 ⟨a, by simpa [Known] using hk, ?_⟩
    change a ∉ keepersOf O s a
    rw [mem_keepersOf h]
    exact fun hc => ha ⟨a, .refl, .inr hc⟩
  refine (Finset.card_lt_card h1).trans_eq ?_
  rw [List.toFinset_card_of_nodup]
  · exact ExtTreeMap.length_keys
  · have := s.c.known.distinct_keys
    exact this.imp fun h e => by subst e; simp at h

theorem doomed (h : Reachable Y s) (k : Nat) {a : Id} (ha : ¬ Retained O R s a) (hc : (keepersOf O s a).card ≤ k) :
    Doomed O R s k a := by
  have hp : ∀ {a}, ¬ Retained O R s a → ¬ ByProgram O R s a := fun ha h => ha ⟨_, .refl, .inl h⟩
  induction k generalizing a with
  | zero =>
    refine ⟨hp ha, fun u hu => ?_⟩
    have : u ∈ keepersOf O s a := (mem_keepersOf h).2 (.single hu)
    rw [Finset.card_eq_zero.1 (Nat.le_zero.1 hc)] at this
    simp at this
  | succ k ih =>
    refine ⟨hp ha, fun u hu => ?_⟩
    have hau : ¬ Retained O R s u := by
      rintro ⟨x, hx, hh⟩
      exact ha ⟨x, hx.tail hu, hh⟩
    refine ih hau ?_
    have : keepersOf O s u ⊂ keepersOf O s a := by
      refine Finset.ssubset_iff_subset_ne.2 ⟨fun x hx => ?_, fun e => ?_⟩
      · rw [mem_keepersOf h] at hx ⊢
        exact hx.tail hu
      · have : u ∈ keepersOf O s u := by rw [e]; exact (mem_keepersOf h).2 (.single hu)
        rw [mem_keepersOf h] at this
        exact hau ⟨u, .refl, .inr this⟩
    have := Finset.card_lt_card this
    omega

theorem doomed_rounds {k m : Nat} {s s' : St σ} (hr : Rounds Y O R m s s') (h : Reachable Y s) (hc : Counted O R s) {a : Id}
    (hd : Doomed O R s k a ∨ ¬ Known s a) (hk : k < m) : ¬ Known s' a := by
  have gone : ∀ {m s s'}, Rounds Y O R m s s' → Reachable Y s → ∀ a, ¬ Known s a → ¬ Known s' a := by
    intro m s s' hr
    induction hr with
    | none s => intro _ a h; exact h
    | round n ord hg hl _ ih =>
      intro h a ha
      obtain ⟨h1, h2⟩ := RoundDoes.of h hg hl
      exact ih (hl.reachable h2) a fun hk => ha ((h1.known a).1 hk).1
  induction hr generalizing k with
  | none s => omega
  | round n ord hg hl hr ih =>
    obtain ⟨h1, h2⟩ := RoundDoes.of h hg hl
    have h3 := hl.reachable h2
    rcases hd with hd | hd
    · cases k with
      | zero => exact gone hr h3 a (hd.goes h1 hc)
      | succ k => exact ih h3 (h1.counted hc) (.inl (hd.next h1 hc h3)) (by omega)
    · exact gone (.round n ord hg hl hr) h a hd

/-! ## The property -/

/-- **C71** The collections go on returning, if the first does, so that there may be any number of rounds. -/
theorem C71_rounds (h : Reachable Y s) {n : Nat} {ord : HashOrder} (hret : (step Y n ord s .gc).2 = .val .unit) (O : Refs σ)
    (R : Id → Prop) (k : Nat) : ∃ s', Rounds Y O R k s s' := by
  classical
  induction k generalizing s with
  | zero => exact ⟨s, .none s⟩
  | succ k ih =>
    obtain ⟨s1, e⟩ : ∃ s1, step Y n ord s .gc = (s1, .val .unit) := ⟨_, Prod.ext rfl hret⟩
    have hr1 : Reachable Y s1 := by
      have := Reachable.step n ord .gc h (by rw [e]; trivial)
      rwa [e] at this
    obtain ⟨s2, h2, hl⟩ := letGo_exists O R hr1
    have h3 : (step Y n ord s2 .gc).2 = .val .unit := by
      have h4 := gc_again h e n ord
      rcases step_gc h2 n ord with ⟨e', a, h5, h6⟩ | ⟨_, c', e', _⟩
      · rcases step_gc hr1 n ord with ⟨e'', _⟩ | ⟨h7, _⟩
        · rw [e''] at h4; cases h4
        · rw [hl.cache] at h5 h6; exact absurd (h7 a h5) h6
      · rw [e']
    obtain ⟨s', h5⟩ := ih h2 h3
    exact ⟨s', .round n ord e hl h5⟩

/-- **C71** (the limit) After as many rounds as there are known builders, or more, exactly those builders are left that are
kept by something to which the program refers, or by a cycle of entries of the cache that keep each other; their artifacts, dynamic
states and uses are left as they were, and the builders to which the program refers are alive. -/
theorem C71_limit (h : Reachable Y s) (hc : Counted O R s) {ord : HashOrder} {m k : Nat}
    (hm : (step Y 0 ord s .numKnown).2 = .val (.nat m)) (hk : m ≤ k) {s' : St σ} (hr : Rounds Y O R k s s') :
    (∀ a, Known s' a ↔ Known s a ∧ Retained O R s a) ∧
    (∀ a, Known s' a → (∀ v, Cached s' a v ↔ Cached s a v) ∧ (∀ d, HasState s' a d ↔ HasState s a d) ∧
      ∀ u, UsesNow s' a u ↔ UsesNow s a u) ∧
    (∀ a, ByProgram O R s a → s'.heap[a]? = s.heap[a]?) := by
  have hm : numKnown s.c = m := by
    have : (step Y 0 ord s .numKnown).2 = .val (.nat (numKnown s.c)) := rfl
    rw [this] at hm
    cases hm; rfl
  subst hm
  have key : ∀ {k s s'}, Rounds Y O R k s s' → Reachable Y s → Counted O R s →
      (∀ a, Known s' a → Known s a) ∧ (∀ a, Retained O R s a → (Known s' a ↔ Known s a) ∧ (∀ v, Cached s' a v ↔ Cached s a v) ∧
        (∀ d, HasState s' a d ↔ HasState s a d) ∧ ∀ u, UsesNow s' a u ↔ UsesNow s a u) ∧
      (∀ a, ByProgram O R s a → s'.heap[a]? = s.heap[a]?) := by
    intro k s s' hr
    induction hr with
    | none s => intro _ _; exact ⟨fun _ h => h, fun _ _ => ⟨Iff.rfl, fun _ => Iff.rfl, fun _ => Iff.rfl, fun _ => Iff.rfl⟩, fun _ _ => rfl⟩
    | round n ord hg hl _ ih =>
      intro h hc
      obtain ⟨h1, h2⟩ := RoundDoes.of h hg hl
      obtain ⟨i1, i2, i3⟩ := ih (hl.reachable h2) (h1.counted hc)
      refine ⟨fun a ha => ((h1.known a).1 (i1 a ha)).1, fun a ha => ?_, fun a ha => (i3 a (h1.byProgram_keep ha)).trans ?_⟩
      · obtain ⟨j1, j2, j3, j4⟩ := i2 a (h1.retained_keep hc ha)
        have hn := ha.not_garbage hc
        refine ⟨j1.trans ((h1.known a).trans (and_iff_left hn)), fun v => (j2 v).trans ((h1.art a v).trans (and_iff_left hn)),
          fun v => (j3 v).trans ((h1.state a v).trans (and_iff_left hn)), fun u => (j4 u).trans ((h1.uses a u).trans (and_iff_left hn))⟩
      · ext b
        rw [h1.heap]
        exact and_iff_left (h1.byProgram_keep ha).referred
  obtain ⟨k1, k2, k3⟩ := key hr h hc
  have k4 : ∀ a, Known s' a ↔ Known s a ∧ Retained O R s a := by
    intro a
    refine ⟨fun ha => ⟨k1 a ha, ?_⟩, fun ha => (k2 a ha.2).1.2 ha.1⟩
    by_contra hn
    have := keepersOf_card h (k1 a ha) hn
    exact doomed_rounds hr h hc (.inl (doomed h _ hn le_rfl)) (by omega) ha
  exact ⟨k4, fun a ha => (k2 a ((k4 a).1 ha).2).2, k3⟩

/-- **C71** (no leak) If the program refers to no builder any more, and no entries of the cache keep each other in a cycle, then after
that many rounds the cache is empty, and no builder is alive. -/
theorem C71_no_leak (h : Reachable Y s) (hc : Counted O (fun _ => False) s) (hacyclic : ∀ a, ¬ Relation.TransGen (Keeps O s) a a)
    {ord : HashOrder} {m k : Nat} (hm : (step Y 0 ord s .numKnown).2 = .val (.nat m)) (hk : m ≤ k) {s' : St σ}
    (hr : Rounds Y O (fun _ => False) k s s') :
    (step Y 0 ord s' .numKnown).2 = .val (.nat 0) ∧ (∀ a v, ¬ Cached s' a v) ∧ (∀ a d, ¬ HasState s' a d) ∧ ∀ a, Dead s' a := by
  obtain ⟨h1, _, _⟩ := C71_limit h hc hm hk hr
  have hnone : ∀ a, ¬ Known s' a := by
    intro a ha
    obtain ⟨_, u, _, h2 | h2⟩ := (h1 a).1 ha
    · obtain ⟨_, h3, _⟩ := h2; exact h3
    · exact hacyclic u h2
  have hrc : ∀ {k s s'}, Rounds Y O (fun _ => False) k s s' → Reachable Y s → Counted O (fun _ => False) s →
      Reachable Y s' ∧ Counted O (fun _ => False) s' := by
    intro k s s' hr
    induction hr with
    | none s => intro h1 h2; exact ⟨h1, h2⟩
    | round n ord hg hl _ ih =>
      intro h hc
      obtain ⟨h1, h2⟩ := RoundDoes.of h hg hl
      exact ih (hl.reachable h2) (h1.counted hc)
  obtain ⟨hr', hc'⟩ := hrc hr h hc
  have ha : ∀ a v, ¬ Cached s' a v := fun a v hv =>
    hnone a (hr'.inv.dynKnown _ (hr'.inv.artDyn _ ((mem_getElem _ _).2 ⟨v, hv⟩)))
  have hs : ∀ a d, ¬ HasState s' a d := fun a v hv => hnone a (hr'.inv.dynKnown _ ((mem_getElem _ _).2 ⟨v, hv⟩))
  refine ⟨?_, ha, hs, ?_⟩
  · have : s'.c.known = ∅ := by
      ext a b
      simp only [ExtTreeMap.getElem?_empty, reduceCtorEq, iff_false]
      exact fun hb => hnone a ((mem_getElem _ _).2 ⟨b, hb⟩)
    simp only [step, Op.promise?, exec, numKnown, this]
    rfl
  · intro a
    by_contra hd
    have h2 := (hc' a).1 hd
    have : ∀ a, ¬ Referred O (fun _ => False) s' a := by
      intro a ha'
      induction ha' with
      | program h => exact h
      | artifact h1 _ => exact ha _ _ h1
      | state h1 _ => exact hs _ _ h1
      | builder _ _ _ ih => exact ih
    exact this a h2

/-- **C71** (cycles stay) What is on a cycle of entries of the cache that keep each other, or kept by one, is never collected, however
often. -/
theorem C71_cycles_stay (h : Reachable Y s) (hc : Counted O R s) {u a : Id} (hk : Known s a) (hu : Relation.TransGen (Keeps O s) u u)
    (ha : Relation.ReflTransGen (Keeps O s) u a) {k : Nat} {s' : St σ} (hr : Rounds Y O R k s s') : Known s' a := by
  have hkept : Retained O R s a := ⟨u, ha, .inr hu⟩
  clear hu ha
  induction hr with
  | none s => exact hk
  | round n ord hg hl _ ih =>
    obtain ⟨h1, h2⟩ := RoundDoes.of h hg hl
    exact ih (hl.reachable h2) (h1.counted hc) ((h1.known a).2 ⟨hk, hkept.not_garbage hc⟩) (h1.retained_keep hc hkept)

/-! ## Chains and rings of builders: as many rounds as builders are needed, or none suffice -/

namespace Demo30

open Demo29

/-- `k` builders that use no others were got, and are still alive. -/
structure Leafs (dbg : Bool) (k j : Nat) (s : St Demo.sig) : Prop where
  reach : ReachablePlain (fan dbg k) s
  heap : Heap s (· < k)
  cached : ∀ i < j, ∃ v, Cached s i v
  known : ∀ (a : Id) (b : Nat), s.c.known[a]? = some b → a < k ∧ b = a
  calm : ∀ a, ¬ StrayLeaf s.c a

theorem leafs_all (dbg : Bool) (k j : Nat) (hj : j ≤ k) : ∃ s, Leafs dbg k j s := by
  induction j with
  | zero =>
    obtain ⟨s, h1, h2, h3, _⟩ := alloc_all (fan dbg k) k
    exact ⟨s, h1, h3, by simp, by rw [h2]; simp, by rw [h2]; simp [StrayLeaf]⟩
  | succ j ih =>
    obtain ⟨s, h⟩ := ih (by omega)
    let p : Promise Demo.sig := ⟨j, (j : Nat)⟩
    have hl : s.live p = true := (h.heap.live p).2 ⟨by show j < k; omega, rfl⟩
    have ho : Owning (fan dbg k) s := by
      rintro ⟨a, (b : Nat)⟩ hq
      obtain ⟨hq, hb⟩ := (h.heap.live _).1 hq
      have hq : (a : Nat) < k := hq
      have hb : @Eq Nat b a := hb
      rw [fan_code_leaf dbg (b := b) (by rw [hb]; exact hq)]
      trivial
    have hst : ∃ d, stateOf (fan dbg k) s p = some d := by
      unfold stateOf
      cases s.c.dynStates[p.id]? with
      | some d => exact ⟨d, rfl⟩
      | none => exact ⟨p.b, rfl⟩
    have hsc : Scratch (fan dbg k) (stateOf (fan dbg k) s) p (.ok (j : Nat)) := by
      refine ⟨hst, ?_⟩
      have : (fan dbg k).code p.b = .ret (.ok (j : Nat)) := fan_code_leaf dbg (b := j) (by omega)
      rw [this]
      constructor
    obtain ⟨N, hN⟩ := C28_from_scratch_is_get (fan_pure dbg k) (fan_typed dbg k) h.reach ho hl hsc .bin
    have hN := hN N (Nat.le_refl N) Demo.ord
    have hg : (step (fan dbg k) N Demo.ord s (.get .bin p)).2.goesOn := by rw [hN]; trivial
    have hi := h.reach.reachable.inv
    have hgrow := ((getA_sound (fan_pure dbg k) N) .bin p s hi (h.reach.sound (fan_pure dbg k))).2.1
    have hran := (getA_ok (fan dbg k) N).1.ran .bin p s hi
    have hstray := step_stray hi N Demo.ord (.get .bin p) hg
    have hreach := ReachablePlain.step N Demo.ord (.get .bin p) h.reach (by simp [Op.mutates]) hg
    obtain ⟨v, _, hv, _⟩ := C68_get (fan_ranked dbg k) h.reach.reachable (D := fun w _ => (w, false)) (p := p) (how := .bin) (n := N)
      (ord := Demo.ord) (x := (j : Nat)) (s' := (step (fan dbg k) N Demo.ord s (.get .bin p)).1) (by
        rw [C59_quiet_hooks (fun _ _ => rfl)]; exact Prod.ext rfl hN)
    have e : (step (fan dbg k) N Demo.ord s (.get .bin p)).1 = (getA (fan dbg k) N .bin p s).1 := by
      rw [step_live rfl hl]; rfl
    refine ⟨_, hreach, ?_, ?_, ?_, ?_⟩
    · intro a b
      rw [e, hgrow.heap]
      exact h.heap a b
    · intro i hi'
      by_cases hij : i = j
      · subst hij; exact ⟨v, hv⟩
      · obtain ⟨v, hv⟩ := h.cached i (by omega)
        exact ⟨v, by rw [e]; exact hran.keep _ _ hv⟩
    · intro a b hab
      rw [e] at hab
      rcases hgrow.back a b hab with h1 | h1
      · exact h.known a b h1
      · exact (h.heap a b).1 h1
    · intro a ha
      rcases (hstray a).1 ha with ⟨_, _, h1 | h1⟩
      · rcases h1 with ⟨p, h1, _⟩ | ⟨p, h1, _⟩ | ⟨p, f, h1, _⟩ | ⟨p, f, h1, _⟩ <;> cases h1
      · exact h.calm a h1

/-- What is left of `k` builders: those from `i` on are in the cache, those from `j` on alive. -/
structure From (dbg : Bool) (k i j : Nat) (s : St Demo.sig) : Prop where
  reach : Reachable (fan dbg k) s
  heap : Heap s (fun a => j ≤ a ∧ a < k)
  known : ∀ a : Nat, Known s a ↔ i ≤ a ∧ a < k
  cached : ∀ a v : Nat, Cached s a v ↔ (i ≤ a ∧ a < k) ∧ v = a
  unused : ∀ u a, ¬ UsesNow s u a
  calm : ∀ a, ¬ StrayLeaf s.c a

theorem from_zero (dbg : Bool) (k : Nat) : ∃ s, From dbg k 0 0 s := by
  obtain ⟨s, h⟩ := leafs_all dbg k k (Nat.le_refl k)
  have hr := h.reach.reachable
  have hrank := fan_ranked dbg k
  have hk : ∀ a : Nat, Known s a ↔ 0 ≤ a ∧ a < k := by
    intro a
    constructor
    · intro ha
      obtain ⟨b, hb⟩ := (mem_getElem _ _).1 ha
      exact ⟨Nat.zero_le _, (h.known a b hb).1⟩
    · rintro ⟨_, ha⟩
      obtain ⟨v, hv⟩ := h.cached a ha
      exact hr.inv.dynKnown _ (hr.inv.artDyn _ ((mem_getElem _ _).2 ⟨v, hv⟩))
  have hval : ∀ a v : Nat, Cached s a v → v = a := by
    intro a v hv
    have ha := ((hk a).1 (hr.inv.dynKnown _ (hr.inv.artDyn _ ((mem_getElem _ _).2 ⟨v, hv⟩)))).2
    let p : Promise Demo.sig := ⟨a, (a : Nat)⟩
    obtain ⟨b, hb⟩ := hr.inv.art_known hv
    have hb' : @Eq Nat b a := (h.known a b hb).2
    subst hb'
    have h1 := ((h.reach.sound (fan_pure dbg k) p v hb hv).scratch (.refl s)).2
    have h2 : (fan dbg k).code p.b = .ret (.ok (b : Nat)) := fan_code_leaf dbg (b := b) ha
    rw [h2] at h1
    cases h1
    rfl
  refine ⟨s, hr, ?_, hk, ?_, ?_, h.calm⟩
  · intro a b
    rw [h.heap a b]
    exact ⟨fun h => ⟨⟨Nat.zero_le _, h.1⟩, h.2⟩, fun h => ⟨h.1.2, h.2⟩⟩
  · intro a v
    constructor
    · intro hv
      exact ⟨(hk a).1 (hr.inv.dynKnown _ (hr.inv.artDyn _ ((mem_getElem _ _).2 ⟨v, hv⟩))), hval a v hv⟩
    · rintro ⟨⟨_, ha⟩, rfl⟩
      obtain ⟨x, hx⟩ := h.cached v ha
      have hx : Cached s v (x : Nat) := hx
      rw [hval v x hx] at hx
      exact hx
  · intro u d hud
    obtain ⟨bu, e1⟩ := (mem_getElem _ _).1 (hr.inv.depU _ _ ((usesNow_iff ..).1 hud))
    obtain ⟨bd, e2⟩ := (mem_getElem _ _).1 (hr.inv.depD _ _ ((usesNow_iff ..).1 hud))
    have h1 := hr.downward hrank u d bu bd hud e1 e2
    obtain ⟨h2, h2'⟩ := h.known u bu e1
    have h3 : (bu : Nat) < k := by rw [h2']; exact h2
    have : ∀ x y : Nat, rk k x < rk k y → y < k → False := by
      intro x y h hy
      unfold rk at h
      rw [if_pos hy] at h
      omega
    exact this bd bu h1 h3

/-- The artifact `v` refers to the builder `f v`; nothing else refers to builders. -/
def refs (k : Nat) (f : Nat → Nat) : Refs Demo.sig := ⟨fun v a => @Eq Nat a (f v) ∧ f v < k, fun _ _ => False, fun _ _ => False⟩

theorem referred_iff {k i j : Nat} {dbg : Bool} {f : Nat → Nat} {s : St Demo.sig} (h : From dbg k i j s) (a : Nat) :
    Referred (refs k f) (fun _ => False) s a ↔ ∃ u, i ≤ u ∧ u < k ∧ a = f u ∧ f u < k := by
  constructor
  · intro ha
    cases ha with
    | program h => exact h.elim
    | artifact h1 h2 =>
      obtain ⟨h3, rfl⟩ := (h.cached _ _).1 h1
      exact ⟨_, h3.1, h3.2, h2⟩
    | state _ h2 => exact h2.elim
    | builder _ _ h2 => exact h2.elim
  · rintro ⟨u, h1, h2, h3⟩
    exact .artifact ((h.cached u u).2 ⟨⟨h1, h2⟩, rfl⟩) h3

theorem dead_from {k i j : Nat} {dbg : Bool} {s : St Demo.sig} (h : From dbg k i j s) (a : Nat) : ¬ Dead s a ↔ j ≤ a ∧ a < k := by
  rw [dead_iff]
  constructor
  · intro hn
    obtain ⟨b, hb⟩ := Option.ne_none_iff_exists'.1 hn
    exact ((h.heap a b).1 hb).1
  · intro ha e
    have := (h.heap a a).2 ⟨ha, rfl⟩
    rw [e] at this
    cases this

theorem keeps_iff {k i j : Nat} {dbg : Bool} {f : Nat → Nat} {s : St Demo.sig} (h : From dbg k i j s) (u a : Nat) :
    Keeps (refs k f) s u a ↔ i ≤ u ∧ u < k ∧ a = f u ∧ f u < k := by
  have hcon : ∀ x a, Contains (refs k f) s x a → x = a := by
    intro x a hx
    induction hx with
    | refl => rfl
    | tail _ h2 _ => obtain ⟨_, _, h2⟩ := h2; exact h2.elim
  constructor
  · rintro (hu | ⟨x, hu, hx⟩)
    · exact (h.unused _ _ hu).elim
    · have := hcon _ _ hx
      subst this
      rcases hu with ⟨v, h1, h2⟩ | ⟨d, _, h2⟩
      · obtain ⟨h3, rfl⟩ := (h.cached _ _).1 h1
        exact ⟨h3.1, h3.2, h2⟩
      · exact h2.elim
  · rintro ⟨h1, h2, h3⟩
    exact .inr ⟨a, .inl ⟨u, (h.cached u u).2 ⟨⟨h1, h2⟩, rfl⟩, h3⟩, .refl⟩

theorem numKnown_from {k i j : Nat} {dbg : Bool} {s : St Demo.sig} (h : From dbg k i j s) (n : Nat) (ord : HashOrder) :
    (step (fan dbg k) n ord s .numKnown).2 = .val (.nat (k - i)) := by
  have h1 : s.c.known.keys.toFinset = Finset.Ico i k := by
    ext a
    rw [List.mem_toFinset, ExtTreeMap.mem_keys, Finset.mem_Ico]
    exact h.known a
  have h2 : s.c.known.keys.toFinset.card = s.c.known.size := by
    rw [List.toFinset_card_of_nodup]
    · exact ExtTreeMap.length_keys
    · have := s.c.known.distinct_keys
      exact this.imp fun h e => by subst e; simp at h
  rw [h1, Nat.card_Ico] at h2
  simp only [step, Op.promise?, exec, numKnown, ← h2]

theorem gc_from {k i j : Nat} {dbg : Bool} {s : St Demo.sig} (h : From dbg k i j s) (n : Nat) (ord : HashOrder) :
    (step (fan dbg k) n ord s .gc).2 = .val .unit := by
  rcases step_gc h.reach n ord with ⟨_, a, h1, h2⟩ | ⟨_, _, e, _⟩
  · exact (h.calm a ⟨h1, h2⟩).elim
  · rw [e]

/-- A round takes away the first of the chain. -/
theorem next_round {k i : Nat} {dbg : Bool} {s s1 s2 : St Demo.sig} (h : From dbg k i (i + 1) s) {n : Nat} {ord : HashOrder}
    (hg : step (fan dbg k) n ord s .gc = (s1, .val .unit)) (hl : LetGo (refs k (· + 1)) (fun _ => False) s1 s2) :
    From dbg k (i + 1) (i + 2) s2 := by
  obtain ⟨h1, h2⟩ := RoundDoes.of h.reach hg hl
  have h3 := hl.reachable h2
  have hgar : ∀ a : Nat, (Known s a ∧ Dead s a ∧ ∀ u, ¬ UsesNow s u a) ↔ a = i ∧ i < k := by
    intro a
    have h4 := dead_from h a
    have h5 : Dead s a ↔ ¬ (i + 1 ≤ a ∧ a < k) := by rw [← h4, not_not]
    rw [h.known, h5]
    constructor
    · rintro ⟨h6, h7, _⟩; omega
    · rintro ⟨rfl, h6⟩; exact ⟨⟨Nat.le_refl _, h6⟩, by omega, fun u => h.unused u _⟩
  have hk : ∀ a : Nat, Known s2 a ↔ i + 1 ≤ a ∧ a < k := by
    intro a
    rw [h1.known, hgar, h.known]; omega
  have hc : ∀ a v : Nat, Cached s2 a v ↔ (i + 1 ≤ a ∧ a < k) ∧ v = a := by
    intro a v
    rw [h1.art, hgar, h.cached]
    constructor
    · rintro ⟨⟨h6, rfl⟩, h7⟩; exact ⟨by omega, rfl⟩
    · rintro ⟨h6, rfl⟩; exact ⟨⟨by omega, rfl⟩, by omega⟩
  have href : ∀ a : Nat, Referred (refs k (· + 1)) (fun _ => False) s2 a ↔ i + 2 ≤ a ∧ a < k := by
    intro a
    constructor
    · intro ha
      cases ha with
      | program h => exact h.elim
      | artifact h4 h5 =>
        obtain ⟨h6, rfl⟩ := (hc _ _).1 h4
        obtain ⟨h5, h7⟩ := h5
        subst h5
        exact ⟨Nat.succ_le_succ h6.1, h7⟩
      | state _ h2 => exact h2.elim
      | builder _ _ h2 => exact h2.elim
    · rintro ⟨h4, h5⟩
      obtain ⟨u, rfl⟩ : ∃ u, a = u + 1 := ⟨a - 1, by omega⟩
      exact .artifact ((hc u u).2 ⟨⟨by omega, by omega⟩, rfl⟩) ⟨rfl, h5⟩
  refine ⟨h3, ?_, hk, hc, fun u a hu => h.unused u a ((h1.uses u a).1 hu).1, ?_⟩
  · intro a b
    rw [h1.heap, href, h.heap]
    constructor
    · rintro ⟨⟨_, h5⟩, h4⟩; exact ⟨h4, h5⟩
    · rintro ⟨h4, h5⟩; exact ⟨⟨⟨Nat.le_of_succ_le h4.1, h4.2⟩, h5⟩, h4⟩
  · have h4 := gc_again h.reach hg n ord
    intro a ha
    rw [hl.cache] at ha
    rcases step_gc h2 n ord with ⟨e, _⟩ | ⟨h5, _⟩
    · rw [e] at h4; cases h4
    · exact ha.2 (h5 a ha.1)

theorem rounds_from {k i j : Nat} {dbg : Bool} {s s' : St Demo.sig} (h : From dbg k i (i + 1) s)
    (hr : Rounds (fan dbg k) (refs k (· + 1)) (fun _ => False) j s s') : From dbg k (i + j) (i + j + 1) s' := by
  induction j generalizing i s with
  | zero => cases hr; exact h
  | succ j ih =>
    cases hr with
    | round n ord hg hl hr =>
      have := ih (next_round h hg hl) hr
      rw [Nat.add_right_comm] at this
      exact this

theorem chain_start (dbg : Bool) (k : Nat) : ∃ s, From dbg k 0 1 s ∧ Counted (refs k (· + 1)) (fun _ => False) s := by
  obtain ⟨s, h⟩ := from_zero dbg k
  have h1 : From dbg k 0 1 (step (fan dbg k) 0 Demo.ord s (.free (0 : Nat))).1 := by
    refine ⟨Reachable.step 0 Demo.ord (.free (0 : Nat)) h.reach trivial, ?_, h.known, h.cached, h.unused, h.calm⟩
    intro a b
    simp only [step, Op.promise?, exec, freeB, ExtTreeMap.getElem?_erase]
    split
    · next ha =>
      have : (0 : Nat) = a := by simpa using ha
      subst this
      constructor
      · intro h; cases h
      · rintro ⟨⟨h, _⟩, _⟩; exact absurd h (by decide)
    · next ha =>
      have hne : (0 : Nat) ≠ a := by simpa using ha
      rw [h.heap]
      constructor
      · rintro ⟨⟨_, h1⟩, h2⟩; exact ⟨⟨Nat.one_le_iff_ne_zero.2 (Ne.symm hne), h1⟩, h2⟩
      · rintro ⟨⟨_, h1⟩, h2⟩; exact ⟨⟨Nat.zero_le _, h1⟩, h2⟩
  refine ⟨_, h1, fun a => ?_⟩
  rw [dead_from h1, referred_iff h1]
  constructor
  · rintro ⟨h2, h3⟩
    obtain ⟨u, rfl⟩ : ∃ u, a = u + 1 := ⟨(a : Nat) - 1, (Nat.sub_add_cancel h2).symm⟩
    exact ⟨u, Nat.zero_le _, Nat.lt_of_succ_lt h3, rfl, h3⟩
  · rintro ⟨u, _, _, rfl, h3⟩
    exact ⟨Nat.succ_le_succ (Nat.zero_le u), h3⟩

end Demo30

/-- **C71** As many rounds as there are known builders may be needed: for every `k` there are a program and a history after which the
program refers to no builder any more, the entries of `k` builders keep each other, but not in a cycle, and each round collects just one of
them. -/
theorem C71_cycles_needed (dbg : Bool) (k : Nat) : ∃ (Y : Sys Demo.sig) (O : Refs Demo.sig) (s : St Demo.sig),
    Y.debug = dbg ∧ Reachable Y s ∧ Counted O (fun _ => False) s ∧ (∀ a, ¬ Relation.TransGen (Keeps O s) a a) ∧
    (∀ n ord, (step Y n ord s .gc).2 = .val .unit) ∧
    ∀ j ≤ k, ∀ s', Rounds Y O (fun _ => False) j s s' → ∀ n ord, (step Y n ord s' .numKnown).2 = .val (.nat (k - j)) := by
  obtain ⟨s, h, hc⟩ := Demo30.chain_start dbg k
  refine ⟨Demo29.fan dbg k, Demo30.refs k (· + 1), s, rfl, h.reach, hc, ?_, fun n ord => Demo30.gc_from h n ord, fun j _ s' hr n ord => ?_⟩
  · have key : ∀ a b : Nat, Relation.TransGen (Keeps (Demo30.refs k (· + 1)) s) a b → a < b := by
      intro a b hab
      induction hab with
      | single h1 => obtain ⟨_, _, h2, _⟩ := (Demo30.keeps_iff h _ _).1 h1; rw [h2]; exact Nat.lt_succ_self _
      | tail _ h1 ih => obtain ⟨_, _, h2, _⟩ := (Demo30.keeps_iff h _ _).1 h1; rw [h2]; exact Nat.lt_succ_of_lt ih
    exact fun a ha => Nat.lt_irrefl _ (key a a ha)
  · have h1 := Demo30.numKnown_from (Demo30.rounds_from h hr) n ord
    rw [Nat.zero_add] at h1
    exact h1

/-- **C71** And no number of rounds may suffice: for every `k > 0` there are a program and a history after which the program refers to no
builder any more, but `k` builders whose artifacts refer to the next one in a ring stay in the cache forever. -/
theorem C71_rings_leak (dbg : Bool) (k : Nat) (hk : 0 < k) : ∃ (Y : Sys Demo.sig) (O : Refs Demo.sig) (s : St Demo.sig),
    Y.debug = dbg ∧ Reachable Y s ∧ Counted O (fun _ => False) s ∧ (∀ n ord, (step Y n ord s .gc).2 = .val .unit) ∧
    (∀ n ord, (step Y n ord s .numKnown).2 = .val (.nat k)) ∧
    ∀ j s', Rounds Y O (fun _ => False) j s s' → ∀ a, Known s a → Known s' a := by
  obtain ⟨s, h⟩ := Demo30.from_zero dbg k
  let f : Nat → Nat := fun v => (v + 1) % k
  have hf : ∀ v, f v < k := fun v => Nat.mod_lt _ hk
  have hc : Counted (Demo30.refs k f) (fun _ => False) s := by
    intro a
    rw [Demo30.dead_from h, Demo30.referred_iff h]
    constructor
    · rintro ⟨_, h1⟩
      have h1 : (a : Nat) < k := h1
      by_cases ha : @Eq Nat a 0
      · refine ⟨k - 1, Nat.zero_le _, by omega, ?_, hf _⟩
        rw [ha]
        simp only [f]
        rw [Nat.sub_add_cancel hk, Nat.mod_self]
      · refine ⟨(a : Nat) - 1, Nat.zero_le _, ?_, ?_, hf _⟩
        · exact Nat.lt_of_le_of_lt (Nat.sub_le _ _) h1
        · simp only [f]
          rw [Nat.sub_add_cancel (Nat.one_le_iff_ne_zero.2 ha), Nat.mod_eq_of_lt h1]
    · rintro ⟨u, _, _, rfl, h3⟩; exact ⟨Nat.zero_le _, h3⟩
  refine ⟨Demo29.fan dbg k, Demo30.refs k f, s, rfl, h.reach, hc, fun n ord => Demo30.gc_from h n ord, fun n ord => ?_, fun j s' hr a ha => ?_⟩
  · exact Demo30.numKnown_from h n ord
  · -- each is reached from 0, and 0 again from the last
    have path : ∀ a : Nat, a < k → Relation.ReflTransGen (Keeps (Demo30.refs k f) s) (0 : Nat) a := by
      intro a ha
      induction a with
      | zero => exact .refl
      | succ a ih =>
        refine (ih (by omega)).tail ((Demo30.keeps_iff h a (a + 1)).2 ⟨Nat.zero_le _, by omega, ?_, hf _⟩)
        simp only [f]; rw [Nat.mod_eq_of_lt ha]
    have hz : Relation.TransGen (Keeps (Demo30.refs k f) s) (0 : Nat) (0 : Nat) := by
      refine Relation.TransGen.tail' (path (k - 1) (by omega)) ((Demo30.keeps_iff h (k - 1) 0).2 ⟨Nat.zero_le _, by omega, ?_, hf _⟩)
      simp only [f]; rw [Nat.sub_add_cancel hk, Nat.mod_self]
    exact C71_cycles_stay h.reach hc ha hz (path a ((h.known a).1 ha).2) hr

/-- A case of `C71_limit` in which something is collected and something stays: the program still refers to the builder `r` of a chain; the
builders before it are collected, it and those behind it stay. -/
example (dbg : Bool) (k r : Nat) (h0 : 0 < r) (hr : r < k) : ∃ s, Reachable (Demo29.fan dbg k) s ∧
    Counted (Demo30.refs k (· + 1)) (fun a => @Eq Nat a r) s ∧
    (∃ s', Rounds (Demo29.fan dbg k) (Demo30.refs k (· + 1)) (fun a => @Eq Nat a r) k s s') ∧
    ∀ s', Rounds (Demo29.fan dbg k) (Demo30.refs k (· + 1)) (fun a => @Eq Nat a r) k s s' → ∀ a : Nat, Known s' a ↔ r ≤ a ∧ a < k := by
  obtain ⟨s, h, hc⟩ := Demo30.chain_start dbg k
  have hcount : Counted (Demo30.refs k (· + 1)) (fun a => @Eq Nat a r) s := by
    intro a
    constructor
    · intro ha
      have h1 := (hc a).1 ha
      clear ha
      induction h1 with
      | program h => exact h.elim
      | artifact h1 h2 => exact .artifact h1 h2
      | state h1 h2 => exact .state h1 h2
      | builder _ _ h2 => exact h2.elim
    · intro ha
      cases ha with
      | program h1 => subst h1; exact (Demo30.dead_from h _).2 ⟨h0, hr⟩
      | artifact h1 h2 => exact (hc _).2 (.artifact h1 h2)
      | state h1 h2 => exact h2.elim
      | builder _ _ h2 => exact h2.elim
  refine ⟨s, h.reach, hcount, C71_rounds h.reach (Demo30.gc_from h 0 Demo.ord) _ _ k, fun s' hs' a => ?_⟩
  obtain ⟨h1, _, _⟩ := C71_limit h.reach hcount (Demo30.numKnown_from h 0 Demo.ord) (Nat.le_refl k) hs'
  rw [h1, h.known]
  have hpath : ∀ x y : Nat, Relation.ReflTransGen (Keeps (Demo30.refs k (· + 1)) s) x y → x ≤ y := by
    intro x y hxy
    induction hxy with
    | refl => exact Nat.le_refl _
    | tail _ h2 ih => obtain ⟨_, _, h3, _⟩ := (Demo30.keeps_iff h _ _).1 h2; rw [h3]; exact Nat.le_succ_of_le ih
  constructor
  · rintro ⟨⟨_, h2⟩, u, h3, h4 | h4⟩
    · obtain ⟨x, h5, h6⟩ := h4
      have : ∀ y, Contains (Demo30.refs k (· + 1)) s x y → x = y := by
        intro y hy
        induction hy with
        | refl => rfl
        | tail _ h2 _ => obtain ⟨_, _, h2⟩ := h2; exact h2.elim
      have h7 := this u h6
      have h5 : @Eq Nat x r := h5
      rw [← h5]
      refine ⟨?_, h2⟩
      rw [h7]
      exact hpath u a h3
    · obtain ⟨x, h5, h6⟩ := Relation.TransGen.tail'_iff.1 h4
      obtain ⟨_, _, h7, _⟩ := (Demo30.keeps_iff h _ _).1 h6
      have h8 := hpath u x h5
      rw [h7] at h8
      exact absurd h8 (Nat.not_succ_le_self _)
  · rintro ⟨h2, h3⟩
    refine ⟨⟨Nat.zero_le _, h3⟩, r, ?_, .inl ⟨r, rfl, .refl⟩⟩
    obtain ⟨i, rfl⟩ := Nat.exists_eq_add_of_le h2
    clear h2
    induction i with
    | zero => exact .refl
    | succ i ih => exact (ih (by omega)).tail ((Demo30.keeps_iff h (r + i) (r + i + 1)).2 ⟨Nat.zero_le _, by omega, rfl, h3⟩)

end Daab
