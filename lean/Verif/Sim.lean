import Verif.Gc
import Verif.Stray
import Verif.HashIndep

/-!
# A cache without the garbage answers the same

`Sim G s t`: the cache `t` is the cache `s` without the builders in `G`, which nobody references and
which only builders in `G` use.  Every operation that goes on in `s` gives the same answer in `t`, and
leads to such a pair of states again.
-/

open Std

namespace Daab

variable {σ : Sig} {Y : Sys σ}

/-- `t` is `s` without the unreferenced builders in `G`. -/
structure Sim (G : Id → Prop) (s t : St σ) : Prop where
  w : t.w = s.w
  heap : t.heap = s.heap
  born : t.born = s.born
  gone : ∀ a, G a → s.heap[a]? = none
  gknown : ∀ a, G a → a ∈ s.c.known
  knownG : ∀ a : Id, G a → t.c.known[a]? = none
  known : ∀ a : Id, ¬ G a → t.c.known[a]? = s.c.known[a]?
  art : ∀ a : Id, ¬ G a → t.c.artifacts[a]? = s.c.artifacts[a]?
  dyn : ∀ a : Id, ¬ G a → t.c.dynStates[a]? = s.c.dynStates[a]?
  dep : ∀ u d, ¬ G u → (Dep t.c u d ↔ Dep s.c u d)
  closed : ∀ u d, Dep s.c u d → G d → G u
  stray : ∀ a, a ∉ s.c.known → (a ∈ t.c.leafs ↔ a ∈ s.c.leafs)
  leafG : ∀ a, G a → a ∉ t.c.leafs

variable {G : Id → Prop} {s t : St σ}

theorem Sim.live (h : Sim G s t) (p : Promise σ) : t.live p = s.live p := by
  unfold St.live; rw [h.heap]

theorem Sim.notG (h : Sim G s t) {p : Promise σ} (hl : s.live p = true) : ¬ G p.id := by
  intro hg
  rw [live_iff, h.gone _ hg] at hl
  cases hl

theorem Sim.mem (h : Sim G s t) {a : Id} (ha : ¬ G a) : a ∈ t.c.known ↔ a ∈ s.c.known := by
  rw [mem_getElem, mem_getElem, h.known a ha]

theorem Sim.isKnown (h : Sim G s t) {a : Id} (ha : ¬ G a) : isKnown a t.c = isKnown a s.c := by
  have := h.mem ha
  unfold Daab.isKnown
  rw [Bool.eq_iff_iff]
  simpa using this

theorem Sim.makeKnown (h : Sim G s t) {p : Promise σ} (hp : ¬ G p.id) :
    Sim G (s.onCache (makeKnown p)) (t.onCache (makeKnown p)) := by
  have hk := h.known p.id hp
  have hm := h.mem hp
  constructor
  · exact h.w
  · exact h.heap
  · exact h.born
  · exact h.gone
  · intro a ha
    have := h.gknown a ha
    rw [mem_getElem] at *
    obtain ⟨v, hv⟩ := this
    simp only [St.onCache, makeKnown_getElem]
    split
    · exact ⟨_, rfl⟩
    · exact ⟨v, hv⟩
  · intro a ha
    simp only [St.onCache, makeKnown_getElem]
    rw [if_neg (by rintro rfl; exact hp ha)]
    exact h.knownG a ha
  · intro a ha
    simp only [St.onCache, makeKnown_getElem]
    rw [hk, h.known a ha]
  · intro a ha; simpa [St.onCache] using h.art a ha
  · intro a ha; simpa [St.onCache] using h.dyn a ha
  · intro u d hu; simpa [St.onCache, Dep] using h.dep u d hu
  · intro u d hu hd; exact h.closed u d (by simpa [St.onCache, Dep] using hu) hd
  · intro a ha
    have ha' : a ∉ s.c.known ∧ a ≠ p.id := by
      simp only [St.onCache, mem_getElem, makeKnown_getElem] at ha
      constructor
      · intro hx
        refine ha ?_
        obtain ⟨v, hv⟩ := (mem_getElem _ _).1 hx
        split
        · exact ⟨_, rfl⟩
        · exact ⟨v, hv⟩
      · rintro rfl; simp at ha
    simp only [St.onCache, makeKnown_leafs, h.stray a ha'.1]
    simp [ha'.2]
  · intro a ha
    simp only [St.onCache, makeKnown_leafs]
    rintro (hx | ⟨rfl, _⟩)
    · exact h.leafG a ha hx
    · exact hp ha

theorem Sim.addEdge (h : Sim G s t) {u q : Promise σ} (hq : ¬ G q.id)
    (hk : q.id ∈ s.c.known) : Sim G (s.onCache (addEdge u q)) (t.onCache (addEdge u q)) := by
  refine { h with dep := ?_, closed := ?_, stray := ?_, leafG := ?_ }
  · intro x d hx
    simp only [St.onCache, addEdge_dep, h.dep x d hx]
  · intro x d hx hd
    simp only [St.onCache, addEdge_dep] at hx
    rcases hx with hx | ⟨rfl, rfl⟩
    · exact h.closed _ _ hx hd
    · exact absurd hd hq
  · intro a ha
    have := h.stray a ha
    have hne : a ≠ q.id := by rintro rfl; exact ha hk
    simp only [St.onCache, Daab.addEdge, Cache.emit]
    grind
  · intro a ha
    have := h.leafG a ha
    simp only [St.onCache, Daab.addEdge, Cache.emit]
    grind

theorem Sim.setDyn (h : Sim G s t) {a : Id} (d : σ.S) (w : σ.W) (e : Event σ) :
    Sim G { s with w := w, c := { s.c with dynStates := s.c.dynStates.insert a d }.emit e }
      { t with w := w, c := { t.c with dynStates := t.c.dynStates.insert a d }.emit e } := by
  refine { h with w := rfl, dyn := ?_ }
  intro x hx
  have := h.dyn x hx
  simp only [Cache.emit]
  grind

theorem Sim.setArt (h : Sim G s t) {a : Id} (v : σ.V) (e : Event σ) :
    Sim G { s with c := { s.c with artifacts := s.c.artifacts.insert a v }.emit e }
      { t with c := { t.c with artifacts := t.c.artifacts.insert a v }.emit e } := by
  refine { h with art := ?_ }
  intro x hx
  have := h.art x hx
  simp only [Cache.emit]
  grind

theorem Sim.emit (h : Sim G s t) (e e' : Event σ) :
    Sim G (s.onCache (·.emit e)) (t.onCache (·.emit e')) := { h with }

theorem Sim.emitW (h : Sim G s t) (w : σ.W) (e e' : Event σ) :
    Sim G { s with w := w, c := s.c.emit e } { t with w := w, c := t.c.emit e' } :=
  { h with w := rfl }

theorem Sim.world (h : Sim G s t) (w : σ.W) : Sim G { s with w := w } { t with w := w } :=
  { h with w := rfl }

theorem Sim.free (h : Sim G s t) (a : Id) : Sim G (freeB a s) (freeB a t) := by
  refine { h with heap := ?_, gone := ?_ }
  · simp only [freeB, h.heap]
  · intro x hx
    have := h.gone x hx
    simp only [freeB]
    grind

theorem Sim.alloc (h : Sim G s t) {q : Promise σ} {s1 : St σ} (hs : allocB q s = some s1) :
    ∃ t1, allocB q t = some t1 ∧ Sim G s1 t1 := by
  unfold allocB at hs
  split at hs
  · cases hs
  · next hc =>
    cases hs
    simp only [Bool.or_eq_true, not_or, Bool.not_eq_true, decide_eq_false_iff_not] at hc
    obtain ⟨⟨h1, h2⟩, h3⟩ := hc
    have hq : ¬ G q.id := by
      intro hg
      have := h.gknown _ hg
      rw [ExtTreeMap.mem_iff_contains] at this
      rw [this] at h2
      cases h2
    have h2' : t.c.known.contains q.id = false := by
      rw [← h2]; exact h.isKnown hq
    refine ⟨{ t with heap := t.heap.insert q.id q.b, born := q.b :: t.born }, ?_, ?_⟩
    · simp only [allocB, h.heap, h.born, h1, h2', h3]; simp
    · refine { h with heap := ?_, born := ?_, gone := ?_ }
      · simp only [h.heap]
      · simp only [h.born]
      · intro x hx
        have hne : x ≠ q.id := by rintro rfl; exact hq hx
        have := h.gone x hx
        simp only
        grind

/-- Same result, and the states are a pair of this kind again. -/
def SimR {α : Type} (G : Id → Prop) (x y : St σ × Res α) : Prop := y.2 = x.2 ∧ Sim G x.1 y.1

theorem Sim.ensureDyn (h : Sim G s t) {p : Promise σ} (hp : ¬ G p.id) :
    SimR G (ensureDyn Y p s) (ensureDyn Y p t) := by
  unfold Daab.ensureDyn
  have h1 := h.makeKnown hp
  generalize s.onCache (Daab.makeKnown p) = s1 at h1
  generalize t.onCache (Daab.makeKnown p) = t1 at h1
  simp only [h1.dyn p.id hp, h1.w]
  cases s1.c.dynStates[p.id]? with
  | some d => exact ⟨rfl, h1⟩
  | none =>
    simp only
    rcases Y.init p.b s1.w with ⟨w, _ | d⟩
    · exact ⟨rfl, h1.emitW w _ _⟩
    · simp only
      split
      · exact ⟨rfl, h1.setDyn d w _⟩
      · exact ⟨rfl, h1⟩

theorem Sim.myState (h : Sim G s t) {p : Promise σ} (hp : ¬ G p.id) (f : σ.S → σ.S) :
    SimR G (myState Y p f s) (myState Y p f t) := by
  unfold Daab.myState
  simp only [h.dyn p.id hp, h.isKnown hp]
  cases s.c.dynStates[p.id]? with
  | none => exact ⟨rfl, h⟩
  | some d =>
    simp only
    split
    · exact ⟨rfl, h⟩
    · split
      · split
        · refine ⟨rfl, ?_⟩
          have := h.setDyn (a := p.id) (f d) s.w (.setDyn p (f d))
          exact { this with w := h.w }
        · exact ⟨rfl, h⟩
      · exact ⟨rfl, h⟩

theorem Sim.lookup (h : Sim G s t) {p : Promise σ} (hp : ¬ G p.id) :
    Daab.lookup Y p t.c = Daab.lookup Y p s.c := by
  unfold Daab.lookup
  simp only [h.art p.id hp, h.isKnown hp]

theorem Sim.lookupRef (h : Sim G s t) {p : Promise σ} (hp : ¬ G p.id) :
    Daab.lookupRef Y p t.c = Daab.lookupRef Y p s.c := h.lookup hp

/-- A getter that keeps the relation. -/
def GetSim (G : Id → Prop) (g : Getter σ) : Prop :=
  ∀ how p s t, Sim G s t → (g how p s).2 ≠ .stuck → SimR G (g how p s) (g how p t)

/-- A build function that keeps the relation. -/
def BuildSim (G : Id → Prop) (bld : BuildFn σ) : Prop :=
  ∀ p s t, Sim G s t → ¬ G p.id → (bld p s).2 ≠ .stuck → SimR G (bld p s) (bld p t)

theorem runProg_sim {g : Getter σ} (hg : GetSim G g) {p : Promise σ} (hp : ¬ G p.id) (prog : Prog σ)
    {s t : St σ} (h : Sim G s t) (hns : (runProg Y g p prog s).2 ≠ .stuck) :
    SimR G (runProg Y g p prog s) (runProg Y g p prog t) := by
  induction prog generalizing s t with
  | ret r => cases r <;> exact ⟨rfl, h⟩
  | panic => exact ⟨rfl, h⟩
  | resolve how q k ih =>
    rw [runProg] at hns ⊢
    rw [runProg]
    rw [h.live]
    split
    · next hl =>
      simp only [hl, if_true] at hns
      have hq := h.notG hl
      have h1 := h.makeKnown hq
      have hkq : q.id ∈ (s.onCache (makeKnown q)).c.known := by
        rw [mem_getElem]; simp only [St.onCache, makeKnown_getElem, if_pos]; exact ⟨_, rfl⟩
      have h2 := h1.addEdge (u := p) hq hkq
      have hkk : Daab.isKnown p.id (makeKnown q t.c) = Daab.isKnown p.id (makeKnown q s.c) := h1.isKnown hp
      unfold track at hns ⊢
      simp only [hkk] at hns ⊢
      by_cases hd : (Y.debug && !Daab.isKnown p.id (makeKnown q s.c)) = true
      · simp only [hd, if_true] at hns ⊢
        exact ⟨rfl, h1⟩
      · simp only [hd, if_false] at hns ⊢
        change SimR G (match g how q ((s.onCache (makeKnown q)).onCache (addEdge p q)) with
          | (s, .val r) => runProg Y g p (k r) s
          | (s, .panic pk) => (s, .panic pk)
          | (s, .stuck) => (s, .stuck)
          | (s, .overflow) => (s, .overflow)) (match g how q ((t.onCache (makeKnown q)).onCache (addEdge p q)) with
          | (s, .val r) => runProg Y g p (k r) s
          | (s, .panic pk) => (s, .panic pk)
          | (s, .stuck) => (s, .stuck)
          | (s, .overflow) => (s, .overflow))
        change (match g how q ((s.onCache (makeKnown q)).onCache (addEdge p q)) with
          | (s, .val r) => runProg Y g p (k r) s
          | (s, .panic pk) => (s, .panic pk)
          | (s, .stuck) => (s, .stuck)
          | (s, .overflow) => (s, .overflow)).2 ≠ _ at hns
        have h3 := hg how q _ _ h2
        generalize g how q ((s.onCache (makeKnown q)).onCache (addEdge p q)) = x at h3 hns
        generalize g how q ((t.onCache (makeKnown q)).onCache (addEdge p q)) = y at h3
        obtain ⟨s3, r⟩ := x
        obtain ⟨t3, r'⟩ := y
        have hr : r ≠ .stuck := by rintro rfl; exact hns rfl
        obtain ⟨he, h4⟩ := h3 hr
        simp only at he h4
        obtain rfl := he.symm
        cases r with
        | val r => exact ih r h4 hns
        | panic k => exact ⟨rfl, h4⟩
        | stuck => exact ⟨rfl, h4⟩
        | overflow => exact ⟨rfl, h4⟩
    · exact ⟨rfl, h⟩
  | myState f k ih =>
    rw [runProg] at hns ⊢
    rw [runProg]
    have h1 := h.myState (Y := Y) hp f
    generalize myState Y p f s = x at h1 hns
    generalize myState Y p f t = y at h1
    obtain ⟨s3, r⟩ := x
    obtain ⟨t3, r'⟩ := y
    obtain ⟨he, h4⟩ := h1
    simp only at he h4
    obtain rfl := he.symm
    cases r with
    | val r => exact ih r h4 hns
    | panic k => exact ⟨rfl, h4⟩
    | stuck => exact ⟨rfl, h4⟩
    | overflow => exact ⟨rfl, h4⟩
  | world f k ih =>
    rw [runProg] at hns ⊢
    rw [runProg, h.w]
    exact ih s.w (h.world _) hns
  | alloc q k ih =>
    rw [runProg] at hns ⊢
    rw [runProg]
    cases ha : allocB q s with
    | none => rw [ha] at hns; exact absurd rfl hns
    | some s1 =>
      rw [ha] at hns
      obtain ⟨t1, h1, h2⟩ := h.alloc ha
      rw [h1]
      exact ih h2 hns
  | free a k ih =>
    rw [runProg] at hns ⊢
    rw [runProg]
    exact ih (h.free a) hns

theorem build_sim {g : Getter σ} (hg : GetSim G g) : BuildSim G (build Y g) := by
  intro p s t h hp hns
  have hca : containsArtifact p.id t.c = containsArtifact p.id s.c := by
    have := h.art p.id hp
    simp only [containsArtifact]
    grind
  unfold build at hns ⊢
  simp only [hca] at hns ⊢
  by_cases hd : (Y.debug && containsArtifact p.id s.c) = true
  · simp only [hd, if_true]; exact ⟨rfl, h⟩
  · simp only [hd, if_false] at hns ⊢
    have h1 := (h.makeKnown hp).ensureDyn (Y := Y) hp
    generalize ensureDyn Y p (s.onCache (makeKnown p)) = x at h1 hns
    generalize ensureDyn Y p (t.onCache (makeKnown p)) = y at h1
    obtain ⟨s3, r⟩ := x
    obtain ⟨t3, r'⟩ := y
    obtain ⟨he, h4⟩ := h1
    simp only at he h4
    obtain rfl := he.symm
    cases r with
    | panic k => exact ⟨rfl, h4⟩
    | stuck => exact ⟨rfl, h4⟩
    | overflow => exact ⟨rfl, h4⟩
    | val d =>
      simp only at hns ⊢
      have h5 := runProg_sim (Y := Y) hg hp (Y.code p.b) (h4.emit (.call p) (.call p))
      generalize runProg Y g p (Y.code p.b) (s3.onCache (·.emit (.call p))) = x at h5 hns
      generalize runProg Y g p (Y.code p.b) (t3.onCache (·.emit (.call p))) = y at h5
      obtain ⟨s6, r⟩ := x
      obtain ⟨t6, r'⟩ := y
      have hr : r ≠ .stuck := by rintro rfl; exact hns rfl
      obtain ⟨he, h7⟩ := h5 hr
      simp only at he h7
      obtain rfl := he.symm
      rcases r with (e | v) | k | _ | _
      · exact ⟨rfl, h7⟩
      · exact ⟨rfl, h7.setArt (a := p.id) v (.built p v)⟩
      · exact ⟨rfl, h7⟩
      · exact ⟨rfl, h7⟩
      · exact ⟨rfl, h7⟩

theorem fresh_sim {p : Promise σ} {x y : St σ × Res (Except σ.E σ.V)} (h : SimR G x y) :
    SimR G (fresh Y p x) (fresh Y p y) := by
  obtain ⟨s, r⟩ := x
  obtain ⟨t, r'⟩ := y
  obtain ⟨he, h⟩ := h
  simp only at he h
  obtain rfl := he.symm
  rcases r with (e | v) | k | _ | _ <;> exact ⟨rfl, h⟩

theorem fresh_ns {p : Promise σ} {x : St σ × Res (Except σ.E σ.V)} (h : (fresh Y p x).2 ≠ .stuck) :
    x.2 ≠ .stuck := by
  obtain ⟨s, r⟩ := x
  rintro rfl
  exact h rfl

theorem getBin_sim {bld : BuildFn σ} (hb : BuildSim G bld) {p : Promise σ} (hp : ¬ G p.id)
    (h : Sim G s t) (hns : (getBin Y bld p s).2 ≠ .stuck) :
    SimR G (getBin Y bld p s) (getBin Y bld p t) := by
  unfold getBin at *
  rw [h.lookup hp]
  cases hl : lookup Y p s.c with
  | val o =>
    rw [hl] at hns
    cases o with
    | none => exact fresh_sim (hb p s t h hp (fresh_ns hns))
    | some v => exact ⟨rfl, h⟩
  | panic k => exact ⟨rfl, h⟩
  | stuck => exact ⟨rfl, h⟩
  | overflow => exact ⟨rfl, h⟩

theorem getRef_sim {bld : BuildFn σ} (hb : BuildSim G bld) {p : Promise σ} (hp : ¬ G p.id)
    (h : Sim G s t) (hns : (getRef Y bld p s).2 ≠ .stuck) :
    SimR G (getRef Y bld p s) (getRef Y bld p t) := by
  unfold getRef at *
  rw [h.lookupRef hp]
  cases hl : lookupRef Y p s.c with
  | val o =>
    rw [hl] at hns
    cases o with
    | none => exact fresh_sim (hb p s t h hp (fresh_ns hns))
    | some v => exact ⟨rfl, h⟩
  | panic k => exact ⟨rfl, h⟩
  | stuck => exact ⟨rfl, h⟩
  | overflow => exact ⟨rfl, h⟩

theorem getCloned_sim {bld : BuildFn σ} (hb : BuildSim G bld) {p : Promise σ} (hp : ¬ G p.id)
    (h : Sim G s t) (hns : (getCloned Y bld p s).2 ≠ .stuck) :
    SimR G (getCloned Y bld p s) (getCloned Y bld p t) := by
  unfold getCloned at *
  have h1 := getRef_sim (Y := Y) hb hp h
  generalize getRef Y bld p s = x at h1 hns
  generalize getRef Y bld p t = y at h1
  obtain ⟨s3, r⟩ := x
  obtain ⟨t3, r'⟩ := y
  have hr : r ≠ .stuck := by rintro rfl; exact hns rfl
  obtain ⟨he, h4⟩ := h1 hr
  simp only at he h4
  obtain rfl := he.symm
  rcases r with (e | v) | k | _ | _ <;> exact ⟨rfl, h4⟩

theorem getBy_sim {bld : BuildFn σ} (hb : BuildSim G bld) : GetSim G (getBy Y bld) := by
  intro how p s t h hns
  unfold getBy at *
  rw [h.live]
  split
  · next hl =>
    simp only [hl, if_true] at hns
    have hp := h.notG hl
    cases how with
    | bin => exact getBin_sim hb hp h hns
    | ref => exact getRef_sim hb hp h hns
    | cloned => exact getCloned_sim hb hp h hns
  · exact ⟨rfl, h⟩

theorem buildN_sim (n : Nat) : BuildSim G (buildN Y n) ∧ GetSim G (getA Y n) := by
  induction n with
  | zero =>
    have : BuildSim G (buildN Y 0) := fun p s t h _ _ => ⟨rfl, h⟩
    exact ⟨this, by rw [getA_eq]; exact getBy_sim this⟩
  | succ n ih =>
    have : BuildSim G (buildN Y (n + 1)) := build_sim ih.2
    exact ⟨this, by rw [getA_eq]; exact getBy_sim this⟩

end Daab
