import Verif.Gc
import Verif.Stray
import Verif.HashIndep

/-!
# The part of a cache that belongs to one component

`View K s t`: the cache `t` is the part of the cache `s` that belongs to one component of the program; the
rest of the program does not interact with the component.  Operations on the component give the same
answer in `s` and `t`; operations on the rest do not change the part.
-/

open Std

namespace Daab

variable {σ : Sig} {Y : Sys σ}

/-! ## Vocabulary -/

/-- A component of a program: some builders, the addresses they are placed at, and what the component sees
of the outside world (`same w w'`: the worlds look the same). -/
structure Component (σ : Sig) where
  part : σ.B → Bool
  addr : Id → Bool
  same : σ.W → σ.W → Prop

/-- The code of a builder of the component: it resolves and creates builders of the component only, and its
behaviour depends only on what the component sees of the world. -/
def Prog.within (K : Component σ) : Prog σ → Prop
  | .ret _ => True
  | .panic => True
  | .resolve _ q k => K.part q.b = true ∧ ∀ r, (k r).within K
  | .myState _ k => ∀ d, (k d).within K
  | .world f k => (∀ w w', K.same w w' → K.same (f w) (f w') ∧ k w' = k w) ∧ ∀ w, (k w).within K
  | .alloc q k => K.part q.b = true ∧ K.addr q.id = true ∧ k.within K
  | .free a k => K.addr a = true ∧ k.within K

/-- The code of a builder outside of the component: it resolves, creates and drops builders outside of the
component only, and changes nothing that the component sees of the world. -/
def Prog.outside (K : Component σ) : Prog σ → Prop
  | .ret _ => True
  | .panic => True
  | .resolve _ q k => K.part q.b = false ∧ ∀ r, (k r).outside K
  | .myState _ k => ∀ d, (k d).outside K
  | .world f k => (∀ w w', K.same w w' → K.same (f w) w') ∧ ∀ w, (k w).outside K
  | .alloc q k => K.part q.b = false ∧ K.addr q.id = false ∧ k.outside K
  | .free a k => K.addr a = false ∧ k.outside K

/-- The component does not interact with the other builders. -/
structure Component.Separate (K : Component σ) (Y : Sys σ) : Prop where
  code : ∀ b, K.part b = true → (Y.code b).within K
  init : ∀ b w w', K.part b = true → K.same w w' →
    (Y.init b w').2 = (Y.init b w).2 ∧ K.same (Y.init b w).1 (Y.init b w').1
  codeOut : ∀ b, K.part b = false → (Y.code b).outside K
  initOut : ∀ b w w', K.part b = false → K.same w w' → K.same (Y.init b w).1 w'

/-! ## The relation -/

/-- `t` is the part of `s` that belongs to the component. -/
structure View (K : Component σ) (s t : St σ) : Prop where
  w : K.same s.w t.w
  heap : ∀ a : Id, K.addr a = true → t.heap[a]? = s.heap[a]?
  placed : ∀ (a : Id) b, s.heap[a]? = some b → K.part b = K.addr a
  born : ∀ b, b ∈ t.born → b ∈ s.born
  knownOut : ∀ a : Id, K.addr a = false → t.c.known[a]? = none
  known : ∀ a : Id, K.addr a = true → t.c.known[a]? = s.c.known[a]?
  art : ∀ a : Id, K.addr a = true → t.c.artifacts[a]? = s.c.artifacts[a]?
  dyn : ∀ a : Id, K.addr a = true → t.c.dynStates[a]? = s.c.dynStates[a]?
  dep : ∀ u d, K.addr u = true → (Dep t.c u d ↔ Dep s.c u d)
  apart : ∀ u d, Dep s.c u d → K.addr u = K.addr d
  stray : ∀ a, K.addr a = true → a ∉ s.c.known → (a ∈ t.c.leafs ↔ a ∈ s.c.leafs)
  leafOut : ∀ a, K.addr a = false → a ∉ t.c.leafs

variable {K : Component σ} {s t : St σ}

theorem View.addrOf (h : View K s t) {p : Promise σ} (hl : s.live p = true) : K.addr p.id = K.part p.b := by
  rw [live_iff] at hl
  exact (h.placed _ _ hl).symm

theorem View.live (h : View K s t) {p : Promise σ} (hp : K.addr p.id = true) : t.live p = s.live p := by
  unfold St.live; rw [h.heap _ hp]

theorem View.mem (h : View K s t) {a : Id} (ha : K.addr a = true) : a ∈ t.c.known ↔ a ∈ s.c.known := by
  rw [mem_getElem, mem_getElem, h.known a ha]

theorem View.isKnown (h : View K s t) {a : Id} (ha : K.addr a = true) : isKnown a t.c = isKnown a s.c := by
  have := h.mem ha
  unfold Daab.isKnown
  rw [Bool.eq_iff_iff]
  simpa using this

theorem not_mem_makeKnown {p : Promise σ} {c : Cache σ} {a : Id} (ha : a ∉ (makeKnown p c).known) :
    a ∉ c.known ∧ a ≠ p.id := by
  simp only [mem_getElem, makeKnown_getElem] at ha
  constructor
  · intro hx
    refine ha ?_
    obtain ⟨v, hv⟩ := (mem_getElem _ _).1 hx
    split
    · exact ⟨_, rfl⟩
    · exact ⟨v, hv⟩
  · rintro rfl; simp at ha

theorem View.makeKnown (h : View K s t) {p : Promise σ} (hp : K.addr p.id = true) :
    View K (s.onCache (makeKnown p)) (t.onCache (makeKnown p)) := by
  have hk := h.known p.id hp
  have hne : ∀ a, K.addr a = false → a ≠ p.id := by rintro a ha rfl; rw [hp] at ha; cases ha
  refine { h with knownOut := ?_, known := ?_, art := ?_, dyn := ?_, dep := ?_, apart := ?_, stray := ?_,
                  leafOut := ?_ }
  · intro a ha
    simp only [St.onCache, makeKnown_getElem]
    rw [if_neg (hne a ha)]
    exact h.knownOut a ha
  · intro a ha
    simp only [St.onCache, makeKnown_getElem]
    rw [hk, h.known a ha]
  · intro a ha; simpa [St.onCache] using h.art a ha
  · intro a ha; simpa [St.onCache] using h.dyn a ha
  · intro u d hu; simpa [St.onCache, Dep] using h.dep u d hu
  · intro u d hu; exact h.apart u d (by simpa [St.onCache, Dep] using hu)
  · intro a ha hx
    have ha' := not_mem_makeKnown hx
    simp only [St.onCache, makeKnown_leafs, h.stray a ha ha'.1]
    simp [ha'.2]
  · intro a ha
    simp only [St.onCache, makeKnown_leafs]
    rintro (hx | ⟨rfl, _⟩)
    · exact h.leafOut a ha hx
    · exact hne _ ha rfl

theorem View.addEdge (h : View K s t) {u q : Promise σ} (hu : K.addr u.id = true) (hq : K.addr q.id = true)
    (hk : q.id ∈ s.c.known) : View K (s.onCache (addEdge u q)) (t.onCache (addEdge u q)) := by
  refine { h with dep := ?_, apart := ?_, stray := ?_, leafOut := ?_ }
  · intro x d hx
    simp only [St.onCache, addEdge_dep, h.dep x d hx]
  · intro x d hx
    simp only [St.onCache, addEdge_dep] at hx
    rcases hx with hx | ⟨rfl, rfl⟩
    · exact h.apart _ _ hx
    · rw [hu, hq]
  · intro a ha hx
    have := h.stray a ha hx
    have hne : a ≠ q.id := by rintro rfl; exact hx hk
    simp only [St.onCache, Daab.addEdge, Cache.emit]
    grind
  · intro a ha
    have := h.leafOut a ha
    simp only [St.onCache, Daab.addEdge, Cache.emit]
    grind

theorem View.setDyn (h : View K s t) {a : Id} (d : σ.S) {w w' : σ.W} (hw : K.same w w') (e e' : Event σ) :
    View K { s with w := w, c := { s.c with dynStates := s.c.dynStates.insert a d }.emit e }
      { t with w := w', c := { t.c with dynStates := t.c.dynStates.insert a d }.emit e' } := by
  refine { h with w := hw, dyn := ?_ }
  intro x hx
  have := h.dyn x hx
  simp only [Cache.emit]
  grind

theorem View.setArt (h : View K s t) {a : Id} (v : σ.V) (e e' : Event σ) :
    View K { s with c := { s.c with artifacts := s.c.artifacts.insert a v }.emit e }
      { t with c := { t.c with artifacts := t.c.artifacts.insert a v }.emit e' } := by
  refine { h with art := ?_ }
  intro x hx
  have := h.art x hx
  simp only [Cache.emit]
  grind

theorem View.emit (h : View K s t) (e e' : Event σ) :
    View K (s.onCache (·.emit e)) (t.onCache (·.emit e')) := { h with }

theorem View.emitW (h : View K s t) {w w' : σ.W} (hw : K.same w w') (e e' : Event σ) :
    View K { s with w := w, c := s.c.emit e } { t with w := w', c := t.c.emit e' } :=
  { h with w := hw }

theorem View.world (h : View K s t) {w w' : σ.W} (hw : K.same w w') :
    View K { s with w := w } { t with w := w' } := { h with w := hw }

theorem View.free (h : View K s t) (a : Id) : View K (freeB a s) (freeB a t) := by
  refine { h with heap := ?_, placed := ?_ }
  · intro x hx
    have := h.heap x hx
    simp only [freeB]
    grind
  · intro x b hb
    have := h.placed x b
    simp only [freeB] at hb
    grind

theorem View.alloc (h : View K s t) {q : Promise σ} (hq : K.addr q.id = true) (hp : K.part q.b = true)
    {s1 : St σ} (hs : allocB q s = some s1) : ∃ t1, allocB q t = some t1 ∧ View K s1 t1 := by
  unfold allocB at hs
  split at hs
  · cases hs
  · next hc =>
    cases hs
    simp only [Bool.or_eq_true, not_or, Bool.not_eq_true, decide_eq_false_iff_not] at hc
    obtain ⟨⟨h1, h2⟩, h3⟩ := hc
    have h1' : t.heap.contains q.id = false := by
      have := h.heap q.id hq
      grind
    have h2' : t.c.known.contains q.id = false := by
      rw [← h2]; exact h.isKnown hq
    have h3' : q.b ∉ t.born := fun hb => absurd (h.born _ hb) (by simpa using h3)
    refine ⟨{ t with heap := t.heap.insert q.id q.b, born := q.b :: t.born }, ?_, ?_⟩
    · simp only [allocB, h1', h2', h3']; simp
    · refine { h with heap := ?_, placed := ?_, born := ?_ }
      · intro x hx
        have := h.heap x hx
        simp only
        grind
      · intro x b hb
        have := h.placed x b
        simp only at hb
        by_cases hx : x = q.id
        · subst hx
          simp at hb
          subst hb
          rw [hp, hq]
        · grind
      · intro b hb
        have := h.born b
        simp only at hb
        grind

/-- Same result, and the states are a pair of this kind again. -/
def ViewR {α : Type} (K : Component σ) (x y : St σ × Res α) : Prop := y.2 = x.2 ∧ View K x.1 y.1

theorem View.ensureDyn (hK : K.Separate Y) (h : View K s t) {p : Promise σ} (hp : K.addr p.id = true)
    (hb : K.part p.b = true) : ViewR K (ensureDyn Y p s) (ensureDyn Y p t) := by
  unfold Daab.ensureDyn
  have h1 := h.makeKnown hp
  generalize s.onCache (Daab.makeKnown p) = s1 at h1
  generalize t.onCache (Daab.makeKnown p) = t1 at h1
  simp only [h1.dyn p.id hp]
  cases s1.c.dynStates[p.id]? with
  | some d => exact ⟨rfl, h1⟩
  | none =>
    simp only
    have hi := hK.init p.b s1.w t1.w hb h1.w
    rcases e1 : Y.init p.b s1.w with ⟨w, o⟩
    rcases e2 : Y.init p.b t1.w with ⟨w', o'⟩
    rw [e1, e2] at hi
    obtain ⟨hi1, hi2⟩ := hi
    simp only at hi1 hi2
    subst hi1
    cases o' with
    | none => exact ⟨rfl, h1.emitW hi2 _ _⟩
    | some d =>
      simp only
      split
      · exact ⟨rfl, h1.setDyn d hi2 _ _⟩
      · exact ⟨rfl, h1⟩

theorem View.myState (h : View K s t) {p : Promise σ} (hp : K.addr p.id = true) (f : σ.S → σ.S) :
    ViewR K (myState Y p f s) (myState Y p f t) := by
  unfold Daab.myState
  simp only [h.dyn p.id hp, h.isKnown hp]
  cases s.c.dynStates[p.id]? with
  | none => exact ⟨rfl, h⟩
  | some d =>
    simp only
    split
    · exact ⟨rfl, h⟩
    · split
      · split
        · exact ⟨rfl, h.setDyn (a := p.id) (f d) h.w _ _⟩
        · exact ⟨rfl, h⟩
      · exact ⟨rfl, h⟩

theorem View.lookup (h : View K s t) {p : Promise σ} (hp : K.addr p.id = true) :
    Daab.lookup Y p t.c = Daab.lookup Y p s.c := by
  unfold Daab.lookup
  simp only [h.art p.id hp, h.isKnown hp]

theorem View.lookupRef (h : View K s t) {p : Promise σ} (hp : K.addr p.id = true) :
    Daab.lookupRef Y p t.c = Daab.lookupRef Y p s.c := h.lookup hp

/-- A getter that keeps the relation. -/
def GetView (K : Component σ) (g : Getter σ) : Prop :=
  ∀ how p s t, View K s t → K.part p.b = true → (g how p s).2 ≠ .stuck → ViewR K (g how p s) (g how p t)

/-- A build function that keeps the relation. -/
def BuildView (K : Component σ) (bld : BuildFn σ) : Prop :=
  ∀ p s t, View K s t → K.addr p.id = true → K.part p.b = true → (bld p s).2 ≠ .stuck →
    ViewR K (bld p s) (bld p t)

theorem runProg_view {g : Getter σ} (hg : GetView K g) {p : Promise σ} (hp : K.addr p.id = true)
    (prog : Prog σ) (hw : prog.within K) {s t : St σ} (h : View K s t)
    (hns : (runProg Y g p prog s).2 ≠ .stuck) :
    ViewR K (runProg Y g p prog s) (runProg Y g p prog t) := by
  induction prog generalizing s t with
  | ret r => cases r <;> exact ⟨rfl, h⟩
  | panic => exact ⟨rfl, h⟩
  | resolve how q k ih =>
    obtain ⟨hqb, hw⟩ := hw
    rw [runProg] at hns ⊢
    rw [runProg]
    by_cases hl : s.live q = true
    · have hq : K.addr q.id = true := by rw [h.addrOf hl]; exact hqb
      have hlt : t.live q = true := by rw [h.live hq]; exact hl
      simp only [hl, hlt, if_true] at hns ⊢
      have h1 := h.makeKnown hq
      have hkq : q.id ∈ (s.onCache (makeKnown q)).c.known := by
        rw [mem_getElem]; simp only [St.onCache, makeKnown_getElem, if_pos]; exact ⟨_, rfl⟩
      have h2 := h1.addEdge (u := p) hp hq hkq
      have hkk : Daab.isKnown p.id (makeKnown q t.c) = Daab.isKnown p.id (makeKnown q s.c) := h1.isKnown hp
      unfold track at hns ⊢
      simp only [hkk] at hns ⊢
      by_cases hd : (Y.debug && !Daab.isKnown p.id (makeKnown q s.c)) = true
      · simp only [hd, if_true] at hns ⊢
        exact ⟨rfl, h1⟩
      · simp only [hd, if_false] at hns ⊢
        change ViewR K (match g how q ((s.onCache (makeKnown q)).onCache (addEdge p q)) with
          | (s, .val r) => runProg Y g p (k r) s
          | (s, .panic pk) => (s, .panic pk)
          | (s, .stuck) => (s, .stuck)
          | (s, .overflow) => (s, .overflow)) (match g how q ((t.onCache (makeKnown q)).onCache (addEdge p q)) with
          | (s, .val r) => runProg Y g p (k r) s
          | (s, .panic pk) => (s, .panic pk)
          | (s, .stuck) => (s, .stuck)
          | (s, .overflow) => (s, .overflow))
        change (match g how q ((s.onCache (makeKnown q)).onCache (addEdge p q)) with
          | (s, .val r) => runProg Y g p (k r) s
          | (s, .panic pk) => (s, .panic pk)
          | (s, .stuck) => (s, .stuck)
          | (s, .overflow) => (s, .overflow)).2 ≠ _ at hns
        have h3 := hg how q _ _ h2 hqb
        generalize g how q ((s.onCache (makeKnown q)).onCache (addEdge p q)) = x at h3 hns
        generalize g how q ((t.onCache (makeKnown q)).onCache (addEdge p q)) = y at h3
        obtain ⟨s3, r⟩ := x
        obtain ⟨t3, r'⟩ := y
        have hr : r ≠ .stuck := by rintro rfl; exact hns rfl
        obtain ⟨he, h4⟩ := h3 hr
        simp only at he h4
        obtain rfl := he.symm
        cases r with
        | val r => exact ih r (hw r) h4 hns
        | panic k => exact ⟨rfl, h4⟩
        | stuck => exact ⟨rfl, h4⟩
        | overflow => exact ⟨rfl, h4⟩
    · simp only [hl] at hns
      exact absurd rfl hns
  | myState f k ih =>
    rw [runProg] at hns ⊢
    rw [runProg]
    have h1 := h.myState (Y := Y) hp f
    generalize myState Y p f s = x at h1 hns
    generalize myState Y p f t = y at h1
    obtain ⟨s3, r⟩ := x
    obtain ⟨t3, r'⟩ := y
    obtain ⟨he, h4⟩ := h1
    simp only at he h4
    obtain rfl := he.symm
    cases r with
    | val r => exact ih r (hw r) h4 hns
    | panic k => exact ⟨rfl, h4⟩
    | stuck => exact ⟨rfl, h4⟩
    | overflow => exact ⟨rfl, h4⟩
  | world f k ih =>
    obtain ⟨hf, hw⟩ := hw
    rw [runProg] at hns ⊢
    obtain ⟨hf1, hf2⟩ := hf _ _ h.w
    rw [runProg, hf2]
    exact ih s.w (hw _) (h.world hf1) hns
  | alloc q k ih =>
    obtain ⟨hqb, hq, hw⟩ := hw
    rw [runProg] at hns ⊢
    rw [runProg]
    cases ha : allocB q s with
    | none => rw [ha] at hns; exact absurd rfl hns
    | some s1 =>
      rw [ha] at hns
      obtain ⟨t1, h1, h2⟩ := h.alloc hq hqb ha
      rw [h1]
      exact ih hw h2 hns
  | free a k ih =>
    rw [runProg] at hns ⊢
    rw [runProg]
    exact ih hw.2 (h.free a) hns

theorem build_view (hK : K.Separate Y) {g : Getter σ} (hg : GetView K g) : BuildView K (build Y g) := by
  intro p s t h hp hb hns
  have hca : containsArtifact p.id t.c = containsArtifact p.id s.c := by
    have := h.art p.id hp
    simp only [containsArtifact]
    grind
  unfold build at hns ⊢
  simp only [hca] at hns ⊢
  by_cases hd : (Y.debug && containsArtifact p.id s.c) = true
  · simp only [hd, if_true]; exact ⟨rfl, h⟩
  · simp only [hd, if_false] at hns ⊢
    have h1 := (h.makeKnown hp).ensureDyn hK hp hb
    generalize ensureDyn Y p (s.onCache (makeKnown p)) = x at h1 hns
    generalize ensureDyn Y p (t.onCache (makeKnown p)) = y at h1
    obtain ⟨s3, r⟩ := x
    obtain ⟨t3, r'⟩ := y
    obtain ⟨he, h4⟩ := h1
    simp only at he h4
    obtain rfl := he.symm
    cases r with
    | panic k => exact ⟨rfl, h4⟩
    | stuck => exact ⟨rfl, h4⟩
    | overflow => exact ⟨rfl, h4⟩
    | val d =>
      simp only at hns ⊢
      have h5 := runProg_view (Y := Y) hg hp (Y.code p.b) (hK.code _ hb) (h4.emit (.call p) (.call p))
      generalize runProg Y g p (Y.code p.b) (s3.onCache (·.emit (.call p))) = x at h5 hns
      generalize runProg Y g p (Y.code p.b) (t3.onCache (·.emit (.call p))) = y at h5
      obtain ⟨s6, r⟩ := x
      obtain ⟨t6, r'⟩ := y
      have hr : r ≠ .stuck := by rintro rfl; exact hns rfl
      obtain ⟨he, h7⟩ := h5 hr
      simp only at he h7
      obtain rfl := he.symm
      rcases r with (e | v) | k | _ | _
      · exact ⟨rfl, h7⟩
      · exact ⟨rfl, h7.setArt (a := p.id) v (.built p v) (.built p v)⟩
      · exact ⟨rfl, h7⟩
      · exact ⟨rfl, h7⟩
      · exact ⟨rfl, h7⟩

theorem fresh_view {p : Promise σ} {x y : St σ × Res (Except σ.E σ.V)} (h : ViewR K x y) :
    ViewR K (fresh Y p x) (fresh Y p y) := by
  obtain ⟨s, r⟩ := x
  obtain ⟨t, r'⟩ := y
  obtain ⟨he, h⟩ := h
  simp only at he h
  obtain rfl := he.symm
  rcases r with (e | v) | k | _ | _ <;> exact ⟨rfl, h⟩

theorem fresh_ns' {p : Promise σ} {x : St σ × Res (Except σ.E σ.V)} (h : (fresh Y p x).2 ≠ .stuck) :
    x.2 ≠ .stuck := by
  obtain ⟨s, r⟩ := x
  rintro rfl
  exact h rfl

theorem getBin_view {bld : BuildFn σ} (hb : BuildView K bld) {p : Promise σ} (hp : K.addr p.id = true)
    (hpb : K.part p.b = true) (h : View K s t) (hns : (getBin Y bld p s).2 ≠ .stuck) :
    ViewR K (getBin Y bld p s) (getBin Y bld p t) := by
  unfold getBin at *
  rw [h.lookup hp]
  cases hl : lookup Y p s.c with
  | val o =>
    rw [hl] at hns
    cases o with
    | none => exact fresh_view (hb p s t h hp hpb (fresh_ns' hns))
    | some v => exact ⟨rfl, h⟩
  | panic k => exact ⟨rfl, h⟩
  | stuck => exact ⟨rfl, h⟩
  | overflow => exact ⟨rfl, h⟩

theorem getRef_view {bld : BuildFn σ} (hb : BuildView K bld) {p : Promise σ} (hp : K.addr p.id = true)
    (hpb : K.part p.b = true) (h : View K s t) (hns : (getRef Y bld p s).2 ≠ .stuck) :
    ViewR K (getRef Y bld p s) (getRef Y bld p t) := by
  unfold getRef at *
  rw [h.lookupRef hp]
  cases hl : lookupRef Y p s.c with
  | val o =>
    rw [hl] at hns
    cases o with
    | none => exact fresh_view (hb p s t h hp hpb (fresh_ns' hns))
    | some v => exact ⟨rfl, h⟩
  | panic k => exact ⟨rfl, h⟩
  | stuck => exact ⟨rfl, h⟩
  | overflow => exact ⟨rfl, h⟩

theorem getCloned_view {bld : BuildFn σ} (hb : BuildView K bld) {p : Promise σ} (hp : K.addr p.id = true)
    (hpb : K.part p.b = true) (h : View K s t) (hns : (getCloned Y bld p s).2 ≠ .stuck) :
    ViewR K (getCloned Y bld p s) (getCloned Y bld p t) := by
  unfold getCloned at *
  have h1 := getRef_view (Y := Y) hb hp hpb h
  generalize getRef Y bld p s = x at h1 hns
  generalize getRef Y bld p t = y at h1
  obtain ⟨s3, r⟩ := x
  obtain ⟨t3, r'⟩ := y
  have hr : r ≠ .stuck := by rintro rfl; exact hns rfl
  obtain ⟨he, h4⟩ := h1 hr
  simp only at he h4
  obtain rfl := he.symm
  rcases r with (e | v) | k | _ | _ <;> exact ⟨rfl, h4⟩

theorem getBy_view {bld : BuildFn σ} (hb : BuildView K bld) : GetView K (getBy Y bld) := by
  intro how p s t h hpb hns
  unfold getBy at *
  by_cases hl : s.live p = true
  · have hp : K.addr p.id = true := by rw [h.addrOf hl]; exact hpb
    have hlt : t.live p = true := by rw [h.live hp]; exact hl
    simp only [hl, hlt, if_true] at hns ⊢
    cases how with
    | bin => exact getBin_view hb hp hpb h hns
    | ref => exact getRef_view hb hp hpb h hns
    | cloned => exact getCloned_view hb hp hpb h hns
  · simp only [hl] at hns
    exact absurd rfl hns

theorem buildN_view (hK : K.Separate Y) (n : Nat) : BuildView K (buildN Y n) ∧ GetView K (getA Y n) := by
  induction n with
  | zero =>
    have : BuildView K (buildN Y 0) := fun p s t h _ _ _ => ⟨rfl, h⟩
    exact ⟨this, by rw [getA_eq]; exact getBy_view this⟩
  | succ n ih =>
    have : BuildView K (buildN Y (n + 1)) := build_view hK ih.2
    exact ⟨this, by rw [getA_eq]; exact getBy_view this⟩

/-! ## The other builders do not disturb -/

theorem View.frame (h : View K s t) {s' : St σ} (hw : K.same s'.w t.w)
    (hheap : ∀ a : Id, K.addr a = true → s'.heap[a]? = s.heap[a]?)
    (hpl : ∀ (a : Id) b, s'.heap[a]? = some b → K.part b = K.addr a)
    (hborn : ∀ b, b ∈ s.born → b ∈ s'.born)
    (hk : ∀ a : Id, K.addr a = true → s'.c.known[a]? = s.c.known[a]?)
    (ha : ∀ a : Id, K.addr a = true → s'.c.artifacts[a]? = s.c.artifacts[a]?)
    (hd : ∀ a : Id, K.addr a = true → s'.c.dynStates[a]? = s.c.dynStates[a]?)
    (hdep : ∀ u d, K.addr u = true → (Dep s'.c u d ↔ Dep s.c u d))
    (hap : ∀ u d, Dep s'.c u d → K.addr u = K.addr d)
    (hl : ∀ a, K.addr a = true → a ∉ s.c.known → (a ∈ s'.c.leafs ↔ a ∈ s.c.leafs)) : View K s' t where
  w := hw
  heap a x := by rw [hheap a x, h.heap a x]
  placed := hpl
  born b hb := hborn b (h.born b hb)
  knownOut := h.knownOut
  known a x := by rw [hk a x, h.known a x]
  art a x := by rw [ha a x, h.art a x]
  dyn a x := by rw [hd a x, h.dyn a x]
  dep u d x := by rw [hdep u d x, h.dep u d x]
  apart := hap
  stray a x hx := by
    have hx' : a ∉ s.c.known := by
      rw [mem_getElem] at hx ⊢
      rw [← hk a x]; exact hx
    rw [hl a x hx', h.stray a x hx']
  leafOut := h.leafOut

theorem View.frame_makeKnown (h : View K s t) {p : Promise σ} (hp : K.addr p.id = false) :
    View K (s.onCache (Daab.makeKnown p)) t := by
  have hne : ∀ a, K.addr a = true → a ≠ p.id := by rintro a ha rfl; rw [hp] at ha; cases ha
  refine h.frame h.w (fun _ _ => rfl) h.placed (fun _ hb => hb) ?_ ?_ ?_ ?_ ?_ ?_
  · intro a ha
    simp only [St.onCache, makeKnown_getElem]
    rw [if_neg (hne a ha)]
  · intro a _; simp [St.onCache]
  · intro a _; simp [St.onCache]
  · intro u d _; simp [St.onCache, Dep]
  · intro u d hu; exact h.apart u d (by simpa [St.onCache, Dep] using hu)
  · intro a ha _
    simp only [St.onCache, makeKnown_leafs]
    simp [hne a ha]

theorem View.frame_addEdge (h : View K s t) {u q : Promise σ} (hu : K.addr u.id = false)
    (hq : K.addr q.id = false) : View K (s.onCache (Daab.addEdge u q)) t := by
  refine h.frame h.w (fun _ _ => rfl) h.placed (fun _ hb => hb) (fun _ _ => rfl) (fun _ _ => rfl)
    (fun _ _ => rfl) ?_ ?_ ?_
  · intro x d hx
    simp only [St.onCache, addEdge_dep]
    constructor
    · rintro (h | ⟨rfl, _⟩)
      · exact h
      · rw [hu] at hx; cases hx
    · exact Or.inl
  · intro x d hx
    simp only [St.onCache, addEdge_dep] at hx
    rcases hx with hx | ⟨rfl, rfl⟩
    · exact h.apart _ _ hx
    · rw [hu, hq]
  · intro a ha _
    have hne : a ≠ q.id := by rintro rfl; rw [hq] at ha; cases ha
    simp only [St.onCache, Daab.addEdge, Cache.emit]
    grind

theorem View.frame_emit (h : View K s t) (e : Event σ) : View K (s.onCache (·.emit e)) t := { h with }

theorem View.frame_setDyn (h : View K s t) {a : Id} (ha : K.addr a = false) (d : σ.S) {w : σ.W}
    (hw : K.same w t.w) (e : Event σ) :
    View K { s with w := w, c := { s.c with dynStates := s.c.dynStates.insert a d }.emit e } t := by
  refine { h with w := hw, dyn := ?_ }
  intro x hx
  have := h.dyn x hx
  have : x ≠ a := by rintro rfl; rw [ha] at hx; cases hx
  simp only [Cache.emit]
  grind

theorem View.frame_setArt (h : View K s t) {a : Id} (ha : K.addr a = false) (v : σ.V) (e : Event σ) :
    View K { s with c := { s.c with artifacts := s.c.artifacts.insert a v }.emit e } t := by
  refine { h with art := ?_ }
  intro x hx
  have := h.art x hx
  have : x ≠ a := by rintro rfl; rw [ha] at hx; cases hx
  simp only [Cache.emit]
  grind

theorem View.frame_free (h : View K s t) {a : Id} (ha : K.addr a = false) : View K (freeB a s) t := by
  refine { h with heap := ?_, placed := ?_ }
  · intro x hx
    have := h.heap x hx
    have : x ≠ a := by rintro rfl; rw [ha] at hx; cases hx
    simp only [freeB]
    grind
  · intro x b hb
    have := h.placed x b
    simp only [freeB] at hb
    grind

theorem View.frame_alloc (h : View K s t) {q : Promise σ} (hq : K.addr q.id = false)
    (hp : K.part q.b = false) {s1 : St σ} (hs : allocB q s = some s1) : View K s1 t := by
  unfold allocB at hs
  split at hs
  · cases hs
  · cases hs
    refine { h with heap := ?_, placed := ?_, born := ?_ }
    · intro x hx
      have := h.heap x hx
      have : x ≠ q.id := by rintro rfl; rw [hq] at hx; cases hx
      simp only
      grind
    · intro x b hb
      have := h.placed x b
      simp only at hb
      by_cases hx : x = q.id
      · subst hx
        simp at hb
        subst hb
        rw [hp, hq]
      · grind
    · intro b hb
      exact List.mem_cons_of_mem _ (h.born b hb)

theorem View.frame_ensureDyn (hK : K.Separate Y) (h : View K s t) {p : Promise σ}
    (hp : K.addr p.id = false) (hb : K.part p.b = false) : View K (Daab.ensureDyn Y p s).1 t := by
  unfold Daab.ensureDyn
  have h1 := h.frame_makeKnown hp
  generalize s.onCache (Daab.makeKnown p) = s1 at h1
  simp only
  cases s1.c.dynStates[p.id]? with
  | some d => exact h1
  | none =>
    simp only
    have hi := hK.initOut p.b s1.w t.w hb h1.w
    rcases e1 : Y.init p.b s1.w with ⟨w, o⟩
    rw [e1] at hi
    cases o with
    | none => exact { h1 with w := hi }
    | some d =>
      simp only
      split
      · exact h1.frame_setDyn hp d hi _
      · exact h1

theorem View.frame_myState (h : View K s t) {p : Promise σ} (hp : K.addr p.id = false) (f : σ.S → σ.S) :
    View K (Daab.myState Y p f s).1 t := by
  unfold Daab.myState
  cases s.c.dynStates[p.id]? with
  | none => exact h
  | some d =>
    simp only
    split
    · exact h
    · split
      · split
        · exact h.frame_setDyn hp (f d) h.w _
        · exact h
      · exact h

/-- A getter that does not disturb the component. -/
def GetFrame (K : Component σ) (g : Getter σ) : Prop :=
  ∀ how p s t, View K s t → K.part p.b = false → View K (g how p s).1 t

/-- A build function that does not disturb the component. -/
def BuildFrame (K : Component σ) (bld : BuildFn σ) : Prop :=
  ∀ p s t, View K s t → K.addr p.id = false → K.part p.b = false → View K (bld p s).1 t

theorem runProg_frame {g : Getter σ} (hg : GetFrame K g) {p : Promise σ} (hp : K.addr p.id = false)
    (prog : Prog σ) (hw : prog.outside K) {s t : St σ} (h : View K s t) :
    View K (runProg Y g p prog s).1 t := by
  induction prog generalizing s with
  | ret r => cases r <;> exact h
  | panic => exact h
  | resolve how q k ih =>
    obtain ⟨hqb, hw⟩ := hw
    rw [runProg]
    split
    · next hl =>
      have hq : K.addr q.id = false := by rw [h.addrOf hl]; exact hqb
      have h1 := h.frame_makeKnown hq
      have h2 := h1.frame_addEdge (u := p) hp hq
      unfold track
      simp only
      split
      · next he => split at he <;> cases he; exact h1
      · next he =>
        split at he <;> cases he
        have h3 := hg how q _ _ h2 hqb
        change View K (match g how q ((s.onCache (makeKnown q)).onCache (addEdge p q)) with
          | (s, .val r) => runProg Y g p (k r) s
          | (s, .panic pk) => (s, .panic pk)
          | (s, .stuck) => (s, .stuck)
          | (s, .overflow) => (s, .overflow)).1 t
        generalize g how q ((s.onCache (makeKnown q)).onCache (addEdge p q)) = x at h3
        obtain ⟨s3, r⟩ := x
        cases r with
        | val r => exact ih r (hw r) h3
        | panic k => exact h3
        | stuck => exact h3
        | overflow => exact h3
    · exact h
  | myState f k ih =>
    rw [runProg]
    have h1 := h.frame_myState (Y := Y) hp f
    generalize myState Y p f s = x at h1
    obtain ⟨s3, r⟩ := x
    cases r with
    | val r => exact ih r (hw r) h1
    | panic k => exact h1
    | stuck => exact h1
    | overflow => exact h1
  | world f k ih =>
    obtain ⟨hf, hw⟩ := hw
    rw [runProg]
    exact ih s.w (hw _) { h with w := hf _ _ h.w }
  | alloc q k ih =>
    obtain ⟨hqb, hq, hw⟩ := hw
    rw [runProg]
    cases ha : allocB q s with
    | none => exact h
    | some s1 => exact ih hw (h.frame_alloc hq hqb ha)
  | free a k ih =>
    rw [runProg]
    exact ih hw.2 (h.frame_free hw.1)

theorem build_frame (hK : K.Separate Y) {g : Getter σ} (hg : GetFrame K g) : BuildFrame K (build Y g) := by
  intro p s t h hp hb
  unfold build
  split
  · exact h
  · have h1 := (h.frame_makeKnown hp).frame_ensureDyn hK hp hb
    simp only
    generalize ensureDyn Y p (s.onCache (makeKnown p)) = x at h1
    obtain ⟨s3, r⟩ := x
    cases r with
    | panic k => exact h1
    | stuck => exact h1
    | overflow => exact h1
    | val d =>
      simp only
      have h5 := runProg_frame (Y := Y) hg hp (Y.code p.b) (hK.codeOut _ hb) (h1.frame_emit (.call p))
      generalize runProg Y g p (Y.code p.b) (s3.onCache (·.emit (.call p))) = x at h5
      obtain ⟨s6, r⟩ := x
      rcases r with (e | v) | k | _ | _
      · exact h5
      · exact h5.frame_setArt hp v (.built p v)
      · exact h5
      · exact h5
      · exact h5

theorem fresh_frame {p : Promise σ} {x : St σ × Res (Except σ.E σ.V)} (h : View K x.1 t) :
    View K (fresh Y p x).1 t := by
  obtain ⟨s, r⟩ := x
  rcases r with (e | v) | k | _ | _ <;> exact h

theorem getRef_frame {bld : BuildFn σ} (hb : BuildFrame K bld) {p : Promise σ} (hp : K.addr p.id = false)
    (hpb : K.part p.b = false) (h : View K s t) : View K (getRef Y bld p s).1 t := by
  unfold getRef
  cases lookupRef Y p s.c with
  | val o =>
    cases o with
    | none => exact fresh_frame (hb p s t h hp hpb)
    | some v => exact h
  | panic k => exact h
  | stuck => exact h
  | overflow => exact h

theorem getBy_frame {bld : BuildFn σ} (hb : BuildFrame K bld) : GetFrame K (getBy Y bld) := by
  intro how p s t h hpb
  unfold getBy
  split
  · next hl =>
    have hp : K.addr p.id = false := by rw [h.addrOf hl]; exact hpb
    cases how with
    | bin =>
      unfold getBin
      cases lookup Y p s.c with
      | val o =>
        cases o with
        | none => exact fresh_frame (hb p s t h hp hpb)
        | some v => exact h
      | panic k => exact h
      | stuck => exact h
      | overflow => exact h
    | ref => exact getRef_frame hb hp hpb h
    | cloned =>
      have h1 := getRef_frame (Y := Y) hb hp hpb h
      simp only [getCloned]
      generalize getRef Y bld p s = x at h1
      obtain ⟨s3, r⟩ := x
      rcases r with (e | v) | k | _ | _ <;> exact h1
  · exact h

theorem buildN_frame (hK : K.Separate Y) (n : Nat) : BuildFrame K (buildN Y n) ∧ GetFrame K (getA Y n) := by
  induction n with
  | zero =>
    have : BuildFrame K (buildN Y 0) := fun p s t h _ _ => h
    exact ⟨this, by rw [getA_eq]; exact getBy_frame this⟩
  | succ n ih =>
    have : BuildFrame K (buildN Y (n + 1)) := build_frame hK ih.2
    exact ⟨this, by rw [getA_eq]; exact getBy_frame this⟩

end Daab
