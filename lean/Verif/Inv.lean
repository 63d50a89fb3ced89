import Verif.Inval

/-! # The global invariant and the atomic steps of building -/

open Std

namespace Daab

variable {σ : Sig}

/-- What holds in every reachable state. -/
structure Inv (Y : Sys σ) (s : St σ) : Prop where
  sync : Sync s.c
  depU : ∀ u d, Dep s.c u d → u ∈ s.c.known
  depD : ∀ u d, Dep s.c u d → d ∈ s.c.known
  artDyn : ∀ a, a ∈ s.c.artifacts → a ∈ s.c.dynStates
  dynKnown : ∀ a, a ∈ s.c.dynStates → a ∈ s.c.known
  leafNo : ∀ a u, a ∈ s.c.leafs → ¬ Dep s.c u a
  knownLeaf : ∀ a, a ∈ s.c.known → a ∈ s.c.leafs ∨ ∃ u, Dep s.c u a
  heapKnown : ∀ (a : Id) b b', s.c.known[a]? = some b → s.heap[a]? = some b' → b = b'
  bornHeap : ∀ (a : Id) b, s.heap[a]? = some b → b ∈ s.born
  bornKnown : ∀ (a : Id) b, s.c.known[a]? = some b → b ∈ s.born
  artTy : ∀ (a : Id) v b, s.c.artifacts[a]? = some v → s.c.known[a]? = some b → Y.artTy v = Y.vty b
  dynTy : ∀ (a : Id) d b, s.c.dynStates[a]? = some d → s.c.known[a]? = some b → Y.stTy d = Y.sty b
  absArt : ∀ a : Id, s.c.artifacts[a]? = ((Abs.of s.c.log).art a).map (·.2)
  absArtB : ∀ (a : Id) bv, (Abs.of s.c.log).art a = some bv → s.c.known[a]? = some bv.1
  absDyn : ∀ a : Id, s.c.dynStates[a]? = ((Abs.of s.c.log).state a).map (·.2)
  absDynB : ∀ (a : Id) bd, (Abs.of s.c.log).state a = some bd → s.c.known[a]? = some bd.1
  absDep : ∀ u d, Dep s.c u d ↔ (Abs.of s.c.log).dep u d

theorem Inv.new (Y : Sys σ) (w : σ.W) : Inv Y (St.new w) := by
  constructor <;> simp [St.new, Sync, Dep, setAt, Abs.of, Abs.empty]

/-- A build of `u` was started and has not succeeded since (it runs, failed or panicked). -/
def Pending (u : Id) (l : List (Event σ)) : Prop :=
  ∃ post pre p, l = post ++ Event.call p :: pre ∧ p.id = u ∧
    ∀ q v, Event.built q v ∈ post → q.id ≠ u

/-- A build of `u` was started and has not succeeded since, or the artifact is cached. -/
def PendOr (s : St σ) (u : Id) : Prop := Pending u s.c.log ∨ u ∈ s.c.artifacts

/-- The atomic steps a build (or `ensure_dyn_state`) consists of. -/
inductive Micro (Y : Sys σ) : St σ → St σ → Prop
  | known {s : St σ} (p : Promise σ) : s.live p = true → Micro Y s (s.onCache (makeKnown p))
  | track {s : St σ} (u q : Promise σ) : s.c.known[u.id]? = some u.b → s.c.known[q.id]? = some q.b →
      PendOr s u.id → Micro Y s (s.onCache (addEdge u q))
  | init {s : St σ} (p : Promise σ) (w : σ.W) (d : σ.S) : s.c.known[p.id]? = some p.b →
      s.c.dynStates[p.id]? = none → Y.stTy d = Y.sty p.b → Y.init p.b s.w = (w, some d) →
      Micro Y s { s with
        w := w
        c := ({ s.c with dynStates := s.c.dynStates.insert p.id d }).emit (.initDyn p (some d)) }
  | initPanic {s : St σ} (p : Promise σ) (w : σ.W) :
      s.c.known[p.id]? = some p.b →
      s.c.dynStates[p.id]? = none → Y.init p.b s.w = (w, none) →
      Micro Y s { s with w := w, c := s.c.emit (.initDyn p none) }
  | setDyn {s : St σ} (p : Promise σ) (d : σ.S) : s.c.known[p.id]? = some p.b →
      p.id ∈ s.c.dynStates → Y.stTy d = Y.sty p.b →
      Micro Y s { s with
        c := { s.c with dynStates := s.c.dynStates.insert p.id d }.emit (.setDyn p d) }
  | world {s : St σ} (w : σ.W) : Micro Y s { s with w := w }
  | alloc {s s' : St σ} (q : Promise σ) : allocB q s = some s' → Micro Y s s'
  | free {s : St σ} (a : Id) : Micro Y s (freeB a s)
  | call {s : St σ} (p : Promise σ) : s.c.known[p.id]? = some p.b → p.id ∈ s.c.dynStates →
      s.c.artifacts[p.id]? = none → Micro Y s (s.onCache (·.emit (.call p)))
  | built {s : St σ} (p : Promise σ) (v : σ.V) : s.c.known[p.id]? = some p.b →
      p.id ∈ s.c.dynStates → Y.artTy v = Y.vty p.b → Event.call p ∈ s.c.log →
      Micro Y s
        (s.onCache fun c => { c.emit (.built p v) with artifacts := c.artifacts.insert p.id v })

/-- Any number of atomic steps. -/
abbrev Micros (Y : Sys σ) := Relation.ReflTransGen (Micro Y)

theorem Pending.cons {u : Id} {l : List (Event σ)} (h : Pending u l) (e : Event σ)
    (he : ∀ q v, e = .built q v → q.id ≠ u) : Pending u (e :: l) := by
  obtain ⟨post, pre, p, rfl, hp, hb⟩ := h
  refine ⟨e :: post, pre, p, rfl, hp, ?_⟩
  intro q v hq
  rcases List.mem_cons.1 hq with h | h
  · exact he q v h.symm
  · exact hb q v h

theorem setAt_insert (m : AMap IdSet) (k a : Id) (v : IdSet) :
    setAt (m.insert k v) a = if a = k then v else setAt m a := by
  unfold setAt; grind

theorem addEdge_dep (u q : Promise σ) (c : Cache σ) (x y : Id) :
    Dep (addEdge u q c) x y ↔ Dep c x y ∨ (x = u.id ∧ y = q.id) := by
  simp only [Dep, addEdge, Cache.emit, setAt_insert]
  grind

theorem addEdge_sync (u q : Promise σ) (c : Cache σ) (h : Sync c) : Sync (addEdge u q c) := by
  intro x y
  have h1 := addEdge_dep u q c x y
  unfold Dep at h1
  rw [h1, h x y]
  simp only [addEdge, Cache.emit, setAt_insert]
  grind

theorem makeKnown_getElem (p : Promise σ) (c : Cache σ) (a : Id) :
    (makeKnown p c).known[a]? = if a = p.id then some ((c.known[p.id]?).getD p.b) else c.known[a]? := by
  unfold makeKnown
  split <;> grind

theorem makeKnown_leafs (p : Promise σ) (c : Cache σ) (a : Id) :
    a ∈ (makeKnown p c).leafs ↔ a ∈ c.leafs ∨ (a = p.id ∧ p.id ∉ c.known) := by
  unfold makeKnown
  split <;> grind

theorem makeKnown_artifacts (p : Promise σ) (c : Cache σ) : (makeKnown p c).artifacts = c.artifacts := by
  unfold makeKnown; split <;> rfl
theorem makeKnown_dynStates (p : Promise σ) (c : Cache σ) : (makeKnown p c).dynStates = c.dynStates := by
  unfold makeKnown; split <;> rfl
theorem makeKnown_dependents (p : Promise σ) (c : Cache σ) :
    (makeKnown p c).dependents = c.dependents := by
  unfold makeKnown; split <;> rfl
theorem makeKnown_dependencies (p : Promise σ) (c : Cache σ) :
    (makeKnown p c).dependencies = c.dependencies := by
  unfold makeKnown; split <;> rfl
theorem makeKnown_log (p : Promise σ) (c : Cache σ) : (makeKnown p c).log = c.log := by
  unfold makeKnown; split <;> rfl

attribute [simp] makeKnown_artifacts makeKnown_dynStates makeKnown_dependents
  makeKnown_dependencies makeKnown_log

theorem live_iff {s : St σ} {p : Promise σ} : s.live p = true ↔ s.heap[p.id]? = some p.b := by
  simp [St.live]

theorem mem_getElem {α : Type} (m : AMap α) (a : Id) : a ∈ m ↔ ∃ v, m[a]? = some v := by
  rw [← ExtTreeMap.isSome_getElem?_iff_mem, Option.isSome_iff_exists]

/-- In a state satisfying the invariant a live builder that is known is known as itself. -/
theorem Inv.live_known {Y : Sys σ} {s : St σ} (h : Inv Y s) {p : Promise σ} (hl : s.live p = true) :
    (makeKnown p s.c).known[p.id]? = some p.b := by
  rw [makeKnown_getElem, if_pos rfl]
  rw [live_iff] at hl
  cases hk : s.c.known[p.id]? with
  | none => simp
  | some b => simp [h.heapKnown _ _ _ hk hl]

theorem Inv.micro {Y : Sys σ} {s s' : St σ} (h : Inv Y s) (hm : Micro Y s s') : Inv Y s' := by
  have hsync := h.sync
  cases hm with
  | known p hl =>
    have hk : ∀ x, x ∈ (makeKnown p s.c).known ↔ x ∈ s.c.known ∨ x = p.id := by
      intro x; unfold makeKnown; split <;> grind
    rw [live_iff] at hl
    have hborn := h.bornHeap _ _ hl
    refine { h with sync := ?_, depU := ?_, depD := ?_, artDyn := ?_, dynKnown := ?_, leafNo := ?_, knownLeaf := ?_, heapKnown := ?_, bornKnown := ?_, artTy := ?_, dynTy := ?_, absArt := ?_, absArtB := ?_, absDyn := ?_, absDynB := ?_, absDep := ?_ }
    all_goals simp only [St.onCache, Dep, Sync, makeKnown_artifacts, makeKnown_dynStates, makeKnown_dependents,
      makeKnown_dependencies, makeKnown_log, makeKnown_getElem, makeKnown_leafs, hk]
    · exact h.sync
    · exact fun u d hd => Or.inl (h.depU u d hd)
    · exact fun u d hd => Or.inl (h.depD u d hd)
    · exact h.artDyn
    · exact fun a ha => Or.inl (h.dynKnown a ha)
    · have := h.leafNo
      have := h.depD
      unfold Dep at *
      grind
    · have := h.knownLeaf
      unfold Dep at *
      grind
    · have := h.heapKnown
      grind
    · have := h.bornKnown
      grind
    · have := h.artTy
      have := h.artDyn
      have := h.dynKnown
      grind
    · have := h.dynTy
      have := h.dynKnown
      grind
    · exact h.absArt
    · have := h.absArtB
      grind
    · exact h.absDyn
    · have := h.absDynB
      grind
    · exact h.absDep
  | track u q hu hq =>
    have hu' : u.id ∈ s.c.known := by grind
    have hq' : q.id ∈ s.c.known := by grind
    refine { h with sync := ?_, depU := ?_, depD := ?_, leafNo := ?_, knownLeaf := ?_, absArt := ?_, absArtB := ?_, absDyn := ?_, absDynB := ?_, absDep := ?_ }
    · exact addEdge_sync u q s.c h.sync
    · intro x y
      simp only [St.onCache, addEdge_dep]
      have := h.depU x y
      show _ → _ ∈ s.c.known
      grind
    · intro x y
      simp only [St.onCache, addEdge_dep]
      have := h.depD x y
      show _ → _ ∈ s.c.known
      grind
    · intro x y
      simp only [St.onCache, addEdge_dep]
      have := h.leafNo x y
      show x ∈ s.c.leafs.erase q.id → _
      grind
    · intro x
      simp only [St.onCache, addEdge_dep]
      have := h.knownLeaf x
      show x ∈ s.c.known → x ∈ s.c.leafs.erase q.id ∨ _
      grind
    · exact h.absArt
    · exact h.absArtB
    · exact h.absDyn
    · exact h.absDynB
    · intro x y
      simp only [St.onCache, addEdge_dep]
      simp only [addEdge, Cache.emit, Abs.of, Abs.apply]
      rw [h.absDep]
  | init p w d hk hd ht hi =>
    have h1 := h.dynKnown
    have h2 := h.artDyn
    refine { h with sync := hsync, artDyn := ?_, dynKnown := ?_, dynTy := ?_, absArt := h.absArt, absArtB := h.absArtB, absDyn := ?_, absDynB := ?_, absDep := h.absDep }
    · simp only [Cache.emit]; grind
    · simp only [Cache.emit]; grind
    · have := h.dynTy
      simp only [Cache.emit]; grind
    · intro a
      have := h.absDyn a
      simp only [Cache.emit, Abs.of, Abs.apply]; grind
    · intro a
      have := h.absDynB a
      simp only [Cache.emit, Abs.of, Abs.apply]; grind
  | initPanic p w hk hd hi =>
    exact { h with sync := hsync, absArt := h.absArt, absArtB := h.absArtB, absDyn := h.absDyn, absDynB := h.absDynB, absDep := h.absDep }
  | setDyn p d hk hd ht =>
    have h1 := h.dynKnown
    have h2 := h.artDyn
    refine { h with sync := hsync, artDyn := ?_, dynKnown := ?_, dynTy := ?_, absArt := h.absArt, absArtB := h.absArtB, absDyn := ?_, absDynB := ?_, absDep := h.absDep }
    · simp only [Cache.emit]; grind
    · simp only [Cache.emit]; grind
    · have := h.dynTy
      simp only [Cache.emit]; grind
    · intro a
      have := h.absDyn a
      simp only [Cache.emit, Abs.of, Abs.apply]; grind
    · intro a
      have := h.absDynB a
      simp only [Cache.emit, Abs.of, Abs.apply]; grind
  | world w => exact { h with }
  | alloc q ha =>
    unfold allocB at ha
    split at ha
    · cases ha
    · next hn =>
      have hn1 : q.id ∉ s.heap := by intro hx; apply hn; simp [hx]
      have hn2 : q.id ∉ s.c.known := by intro hx; apply hn; simp [hx]
      have hn3 : q.b ∉ s.born := by intro hx; apply hn; simp [hx]
      cases ha
      refine { h with heapKnown := ?_, bornHeap := ?_, bornKnown := ?_ }
      · have := h.heapKnown
        grind
      · have := h.bornHeap
        grind
      · have := h.bornKnown
        grind
  | free a =>
    refine { h with heapKnown := ?_, bornHeap := ?_ }
    · have := h.heapKnown
      simp only [freeB]
      grind
    · have := h.bornHeap
      simp only [freeB]
      grind
  | call p hk hd ha =>
    exact { h with sync := hsync, absArt := h.absArt, absArtB := h.absArtB, absDyn := h.absDyn, absDynB := h.absDynB, absDep := h.absDep }
  | built p v hk hd ht _ =>
    have h1 := h.artDyn
    refine { h with sync := hsync, artDyn := ?_, artTy := ?_, absArt := ?_, absArtB := ?_, absDyn := h.absDyn, absDynB := h.absDynB, absDep := h.absDep }
    · simp only [St.onCache, Cache.emit]; grind
    · have := h.artTy
      simp only [St.onCache, Cache.emit]; grind
    · intro a
      have := h.absArt a
      simp only [St.onCache, Cache.emit, Abs.of, Abs.apply]; grind
    · intro a
      have := h.absArtB a
      simp only [St.onCache, Cache.emit, Abs.of, Abs.apply]; grind

theorem Inv.micros {Y : Sys σ} {s s' : St σ} (h : Inv Y s) (hm : Micros Y s s') : Inv Y s' := by
  induction hm with
  | refl => exact h
  | tail _ hm ih => exact ih.micro hm

/-! ## The part of the invariant that builds rely on -/

/-- What builds rely on: artifacts and states belong to known builders, have their types, and the address of a known
builder is not used by another one.  Says nothing about recorded uses, leafs and the log. -/
structure Healthy (Y : Sys σ) (s : St σ) : Prop where
  artDyn : ∀ a, a ∈ s.c.artifacts → a ∈ s.c.dynStates
  dynKnown : ∀ a, a ∈ s.c.dynStates → a ∈ s.c.known
  heapKnown : ∀ (a : Id) b b', s.c.known[a]? = some b → s.heap[a]? = some b' → b = b'
  bornHeap : ∀ (a : Id) b, s.heap[a]? = some b → b ∈ s.born
  bornKnown : ∀ (a : Id) b, s.c.known[a]? = some b → b ∈ s.born
  artTy : ∀ (a : Id) v b, s.c.artifacts[a]? = some v → s.c.known[a]? = some b → Y.artTy v = Y.vty b
  dynTy : ∀ (a : Id) d b, s.c.dynStates[a]? = some d → s.c.known[a]? = some b → Y.stTy d = Y.sty b

theorem Inv.healthy {Y : Sys σ} {s : St σ} (h : Inv Y s) : Healthy Y s :=
  ⟨h.artDyn, h.dynKnown, h.heapKnown, h.bornHeap, h.bornKnown, h.artTy, h.dynTy⟩

theorem Healthy.live_known {Y : Sys σ} {s : St σ} (h : Healthy Y s) {p : Promise σ} (hl : s.live p = true) :
    (makeKnown p s.c).known[p.id]? = some p.b := by
  rw [makeKnown_getElem, if_pos rfl]
  rw [live_iff] at hl
  cases hk : s.c.known[p.id]? with
  | none => simp
  | some b => simp [h.heapKnown _ _ _ hk hl]

theorem Healthy.micro {Y : Sys σ} {s s' : St σ} (h : Healthy Y s) (hm : Micro Y s s') : Healthy Y s' := by
  cases hm with
  | known p hl =>
    have hk : ∀ x, x ∈ (makeKnown p s.c).known ↔ x ∈ s.c.known ∨ x = p.id := by
      intro x; unfold makeKnown; split <;> grind
    rw [live_iff] at hl
    have hborn := h.bornHeap _ _ hl
    refine { h with artDyn := ?_, dynKnown := ?_, heapKnown := ?_, bornKnown := ?_, artTy := ?_, dynTy := ?_ }
    all_goals simp only [St.onCache, makeKnown_artifacts, makeKnown_dynStates, makeKnown_getElem, hk]
    · exact h.artDyn
    · exact fun a ha => Or.inl (h.dynKnown a ha)
    · have := h.heapKnown
      grind
    · have := h.bornKnown
      grind
    · have := h.artTy
      have := h.artDyn
      have := h.dynKnown
      grind
    · have := h.dynTy
      have := h.dynKnown
      grind
  | track u q hu hq => exact { h with }
  | init p w d hk hd ht hi =>
    have h1 := h.dynKnown
    have h2 := h.artDyn
    refine { h with artDyn := ?_, dynKnown := ?_, dynTy := ?_ }
    · simp only [Cache.emit]; grind
    · simp only [Cache.emit]; grind
    · have := h.dynTy
      simp only [Cache.emit]; grind
  | initPanic p w hk hd hi => exact { h with }
  | setDyn p d hk hd ht =>
    have h1 := h.dynKnown
    have h2 := h.artDyn
    refine { h with artDyn := ?_, dynKnown := ?_, dynTy := ?_ }
    · simp only [Cache.emit]; grind
    · simp only [Cache.emit]; grind
    · have := h.dynTy
      simp only [Cache.emit]; grind
  | world w => exact { h with }
  | alloc q ha =>
    unfold allocB at ha
    split at ha
    · cases ha
    · next hn =>
      have hn1 : q.id ∉ s.heap := by intro hx; apply hn; simp [hx]
      have hn2 : q.id ∉ s.c.known := by intro hx; apply hn; simp [hx]
      have hn3 : q.b ∉ s.born := by intro hx; apply hn; simp [hx]
      cases ha
      refine { h with heapKnown := ?_, bornHeap := ?_, bornKnown := ?_ }
      · have := h.heapKnown
        grind
      · have := h.bornHeap
        grind
      · have := h.bornKnown
        grind
  | free a =>
    refine { h with heapKnown := ?_, bornHeap := ?_ }
    · have := h.heapKnown
      simp only [freeB]
      grind
    · have := h.bornHeap
      simp only [freeB]
      grind
  | call p hk hd ha => exact { h with }
  | built p v hk hd ht _ =>
    have h1 := h.artDyn
    refine { h with artDyn := ?_, artTy := ?_ }
    · simp only [St.onCache, Cache.emit]; grind
    · have := h.artTy
      simp only [St.onCache, Cache.emit]; grind

/-- An invariant of builds that is at least `Healthy`. -/
class Stable (Y : outParam (Sys σ)) (I : St σ → Prop) : Prop where
  healthy : ∀ {s : St σ}, I s → Healthy Y s
  micro : ∀ {s s' : St σ}, I s → Micro Y s s' → I s'

instance {Y : Sys σ} : Stable Y (Inv Y) := ⟨Inv.healthy, Inv.micro⟩
instance {Y : Sys σ} : Stable Y (Healthy Y) := ⟨id, Healthy.micro⟩

theorem Stable.micros {Y : Sys σ} {I : St σ → Prop} [Stable Y I] {s s' : St σ} (h : I s) (hm : Micros Y s s') : I s' := by
  induction hm with
  | refl => exact h
  | tail _ hm ih => exact Stable.micro ih hm

end Daab
