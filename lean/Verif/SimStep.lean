import Verif.Sim

/-! # Every operation keeps the relation `Sim` -/

open Std

namespace Daab

variable {σ : Sig} {Y : Sys σ} {G : Id → Prop} {s t : St σ}

/-- No recorded use of the smaller cache involves a builder it lacks. -/
theorem Sim.depT (h : Sim G s t) (ht : Inv Y t) {u d : Id} (hd : Dep t.c u d) :
    ¬ G u ∧ ¬ G d ∧ Dep s.c u d := by
  have hu : ¬ G u := by
    intro hg
    have := ht.depU _ _ hd
    rw [mem_getElem, h.knownG u hg] at this
    obtain ⟨_, h⟩ := this
    cases h
  have hd' : ¬ G d := by
    intro hg
    have := ht.depD _ _ hd
    rw [mem_getElem, h.knownG d hg] at this
    obtain ⟨_, h⟩ := this
    cases h
  exact ⟨hu, hd', (h.dep u d hu).1 hd⟩

theorem Sim.hit (h : Sim G s t) (ht : Inv Y t) {a x : Id} (ha : ¬ G a) :
    (¬ G x → (Hit (Dep t.c) a x ↔ Hit (Dep s.c) a x)) ∧ (G x → ¬ Hit (Dep t.c) a x) := by
  have hG : ∀ x, Hit (Dep t.c) a x → ¬ G x := by
    intro x hx
    rcases Relation.ReflTransGen.cases_head hx with rfl | ⟨y, hy, _⟩
    · exact ha
    · exact (h.depT ht hy).1
  refine ⟨fun hx => ⟨fun hh => ?_, fun hh => ?_⟩, fun hg hh => hG x hh hg⟩
  · exact Relation.ReflTransGen.mono (fun u d hud => (h.depT ht hud).2.2) _ _ hh
  · induction hh using Relation.ReflTransGen.head_induction_on with
    | refl => exact Relation.ReflTransGen.refl
    | head h1 _ ih =>
      have hy := fun hy => hx (h.closed _ _ h1 hy)
      exact Relation.ReflTransGen.head ((h.dep _ _ hx).2 h1) (ih hy)

theorem Dropped.dep' {P : Id → Prop} {c c' : Cache σ} (h : Dropped P c c')
    (hc : ∀ u d, Dep c u d → P d → P u) (u d : Id) : Dep c' u d ↔ Dep c u d ∧ ¬ P u := by
  by_cases hd : P d
  · have : ¬ Dep c' u d := by
      unfold Dep setAt
      rw [h.dts_none d hd]
      simp
    constructor
    · exact fun hh => absurd hh this
    · exact fun hh => absurd (hc u d hh.1 hd) hh.2
  · exact h.dts_mem d u hd

theorem Sim.dropped (h : Sim G s t) (hs : Inv Y s) (ht : Inv Y t) {P Q : Id → Prop} {c d : Cache σ}
    (h1 : Dropped P s.c c) (h2 : Dropped Q t.c d)
    (hP : ∀ u d, Dep s.c u d → P d → P u) (hQ : ∀ u d, Dep t.c u d → Q d → Q u)
    (hPQ : ∀ x, ¬ G x → (Q x ↔ P x)) (hGQ : ∀ x, G x → ¬ Q x) :
    Sim G { s with c := c } { t with c := d } := by
  have k1 := h1.known
  have k2 := h2.known
  have y1 := h1.dynStates
  have y2 := h2.dynStates
  constructor
  · exact h.w
  · exact h.heap
  · exact h.born
  · exact h.gone
  · intro a ha; simp only [k1]; exact h.gknown a ha
  · intro a ha; simp only [k2]; exact h.knownG a ha
  · intro a ha; simp only [k1, k2]; exact h.known a ha
  · intro a ha
    simp only
    by_cases hp : P a
    · rw [h1.art_none a hp, h2.art_none a ((hPQ a ha).2 hp)]
    · rw [h1.art_keep a hp, h2.art_keep a (fun hq => hp ((hPQ a ha).1 hq)), h.art a ha]
  · intro a ha; simp only [y1, y2]; exact h.dyn a ha
  · intro u d hu
    simp only
    rw [h1.dep' hP, h2.dep' hQ, h.dep u d hu, hPQ u hu]
  · intro u d hu hd
    simp only at hu
    rw [h1.dep' hP] at hu
    exact h.closed u d hu.1 hd
  · intro a ha
    simp only [k1] at ha ⊢
    have hg : ¬ G a := fun hg => ha (h.gknown a hg)
    rw [h1.leafs, h2.leafs, h.stray a ha, hPQ a hg]
    have n1 : ∀ u, ¬ Dep s.c u a := fun u hu => ha (hs.depD _ _ hu)
    have n2 : ∀ u, ¬ Dep t.c u a := fun u hu => n1 u ((h.depT ht hu).2.2)
    simp [n1, n2]
  · intro a ha
    simp only [h2.leafs]
    have n2 : ∀ u, ¬ Dep t.c u a := fun u hu => (h.depT ht hu).2.1 ha
    simp [n2, h.leafG a ha, hGQ a ha]

theorem hit_closed (dep : Id → Id → Prop) (a : Id) : ∀ u d, dep u d → Hit dep a d → Hit dep a u :=
  fun _ _ h1 h2 => Relation.ReflTransGen.head h1 h2

theorem Sim.invalidate (h : Sim G s t) (hs : Inv Y s) (ht : Inv Y t) (ord ord' : HashOrder)
    {p : Promise σ} (hp : ¬ G p.id) :
    (Daab.invalidate Y ord' p t.c).2 = (Daab.invalidate Y ord p s.c).2 ∧
    Sim G { s with c := (Daab.invalidate Y ord p s.c).1 } { t with c := (Daab.invalidate Y ord' p t.c).1 } := by
  obtain ⟨c, e1, d1⟩ := invalidate_spec hs ord p
  obtain ⟨d, e2, d2⟩ := invalidate_spec ht ord' p
  rw [e1, e2]
  refine ⟨rfl, ?_⟩
  have := h.dropped hs ht d1 d2 (hit_closed _ _) (hit_closed _ _)
    (fun x hx => (h.hit ht hp).1 hx) (fun x hx => (h.hit ht hp).2 hx)
  exact this.emit _ _

theorem Sim.purge (h : Sim G s t) (hs : Inv Y s) (ht : Inv Y t) (ord ord' : HashOrder)
    {p : Promise σ} (hp : ¬ G p.id) :
    (Daab.purge Y ord' p t.c).2 = (Daab.purge Y ord p s.c).2 ∧
    Sim G { s with c := (Daab.purge Y ord p s.c).1 } { t with c := (Daab.purge Y ord' p t.c).1 } := by
  obtain ⟨c, cF, e1, d1, rfl⟩ := purge_spec hs ord p
  obtain ⟨d, dF, e2, d2, rfl⟩ := purge_spec ht ord' p
  rw [e1, e2]
  refine ⟨rfl, ?_⟩
  have hh := h.dropped hs ht d1 d2 (hit_closed _ _) (hit_closed _ _)
    (fun x hx => (h.hit ht hp).1 hx) (fun x hx => (h.hit ht hp).2 hx)
  have hne : ∀ a, G a → a ≠ p.id := by rintro a ha rfl; exact hp ha
  refine { hh with gknown := ?_, knownG := ?_, known := ?_, dyn := ?_, stray := ?_ }
  · intro a ha
    have := h.gknown a ha
    have := hne a ha
    simp only
    grind
  · intro a ha
    have := h.knownG a ha
    simp only
    grind
  · intro a ha
    have := h.known a ha
    simp only
    grind
  · intro a ha
    have := h.dyn a ha
    simp only
    grind
  · intro a ha
    simp only at ha ⊢
    by_cases hap : a = p.id
    · subst hap
      rw [d1.leafs, d2.leafs]
      have r1 : Hit (Dep s.c) p.id p.id := Relation.ReflTransGen.refl
      have r2 : Hit (Dep t.c) p.id p.id := Relation.ReflTransGen.refl
      simp [r1, r2]
    · have := hh.stray a
      simp only [d1.known] at this
      exact this (by grind)

theorem Sim.invalidateDependents (h : Sim G s t) (hs : Inv Y s) (ht : Inv Y t) (ord ord' : HashOrder)
    {a : Id} (ha : ¬ G a) {c : Cache σ} (hc : Daab.invalidateDependents Y ord a s.c = (c, .done)) :
    ∃ d, Daab.invalidateDependents Y ord' a t.c = (d, .done) ∧
      Sim G { s with c := c } { t with c := d } := by
  rcases hs.invalidateDependents ord a with ⟨c', he, _⟩ | ⟨c', he, hall, _⟩
  · rw [hc] at he; cases he
  have hallT : ∀ x, Dep t.c x a → x = a := fun x hx => hall x (h.depT ht hx).2.2
  by_cases hself : Dep s.c a a
  · obtain ⟨c1, e1, d1⟩ := invalidateDependents_self Y ord a s.c hs.sync hself hall
    obtain ⟨c2, e2, d2⟩ := invalidateDependents_self Y ord' a t.c ht.sync ((h.dep a a ha).2 hself) hallT
    rw [e1] at hc
    cases hc
    refine ⟨_, e2, ?_⟩
    have := h.dropped hs ht d1 d2 (by rintro u d hd rfl; exact hall u hd)
      (by rintro u d hd rfl; exact hallT u hd) (fun x _ => Iff.rfl) (by rintro x hx rfl; exact ha hx)
    exact this.emit _ _
  · have hno : ∀ x, ¬ Dep s.c x a := by
      intro x hx
      have := hall x hx
      subst this
      exact hself hx
    have hnoT : ∀ x, ¬ Dep t.c x a := fun x hx => hno x (h.depT ht hx).2.2
    rw [invalidateDependents_none Y ord a s.c hno] at hc
    cases hc
    refine ⟨_, invalidateDependents_none Y ord' a t.c hnoT, ?_⟩
    have e : ∀ (c : Cache σ), (∀ x, ¬ Dep c x a) → ∀ u d, u ∈ setAt (c.dependents.erase a) d ↔ Dep c u d := by
      intro c hn u d
      unfold Dep setAt at *
      have := hn u
      grind
    refine { h with dep := ?_, closed := ?_, stray := ?_, leafG := ?_ }
    · intro u d hu
      simp only [Cache.emit]
      unfold Dep
      simp only
      rw [e t.c hnoT, e s.c hno, h.dep u d hu]
    · intro u d hu hd
      simp only [Cache.emit] at hu
      unfold Dep at hu
      simp only at hu
      rw [e s.c hno] at hu
      exact h.closed u d hu hd
    · intro x hx
      have := h.stray x hx
      simp only [Cache.emit]
      grind
    · intro x hx
      have := h.leafG x hx
      have : x ≠ a := by rintro rfl; exact ha hx
      simp only [Cache.emit]
      grind

theorem Sim.lookupMut (h : Sim G s t) (hs : Inv Y s) (ht : Inv Y t) (ord ord' : HashOrder)
    {p : Promise σ} (hl : s.live p = true) :
    (Daab.lookupMut Y ord p s.c).2 = .panic .noCounterpart ∨
    ∃ c d, Daab.lookupMut Y ord p s.c = (c, .val (c.artifacts[p.id]?)) ∧
      Daab.lookupMut Y ord' p t.c = (d, .val (c.artifacts[p.id]?)) ∧
      Inv Y { s with c := c } ∧ Inv Y { t with c := d } ∧ Sim G { s with c := c } { t with c := d } := by
  have hp := h.notG hl
  have hlt : t.live p = true := by rw [h.live, hl]
  rcases lookupMut_spec hs ord hl with ⟨c, e, _⟩ | ⟨c, e, hd⟩
  · left; rw [e]
  · right
    obtain ⟨d, e2, hsim⟩ := h.invalidateDependents hs ht ord ord' hp hd
    rcases lookupMut_spec ht ord' hlt with ⟨d', _, x, hx1, hx2⟩ | ⟨d', e3, hd'⟩
    · rcases hs.invalidateDependents ord p.id with ⟨c', he, _⟩ | ⟨c', he, hall, _⟩
      · rw [hd] at he; cases he
      · exact absurd (hall x (h.depT ht hx2).2.2) hx1
    · rw [e2] at hd'
      cases hd'
      have i1 : Inv Y { s with c := c } := by
        rcases hs.invalidateDependents ord p.id with ⟨c', he, _⟩ | ⟨c', he, _, hi, _⟩
        · rw [hd] at he; cases he
        · rw [hd] at he; cases he; exact hi
      have i2 : Inv Y { t with c := d } := by
        rcases ht.invalidateDependents ord' p.id with ⟨c', he, _⟩ | ⟨c', he, _, hi, _⟩
        · rw [e2] at he; cases he
        · rw [e2] at he; cases he; exact hi
      refine ⟨c, d, e, ?_, i1, i2, hsim⟩
      rw [e3]
      have := hsim.art p.id hp
      simp only at this
      rw [this]

theorem Sim.writeArt (h : Sim G s t) {p : Promise σ} {f : σ.V → σ.V} {v : σ.V} {c : Cache σ}
    (hc : Daab.writeArt Y p f v s.c = some c) :
    ∃ d, Daab.writeArt Y p f v t.c = some d ∧ Sim G { s with c := c } { t with c := d } := by
  unfold Daab.writeArt at *
  split at hc
  · next ht =>
    cases hc
    rw [if_pos ht]
    exact ⟨_, rfl, h.setArt _ _⟩
  · cases hc

theorem Sim.dynStateMut (h : Sim G s t) (hs : Inv Y s) (ht : Inv Y t) (ord ord' : HashOrder)
    {p : Promise σ} (hp : ¬ G p.id) (f : σ.S → σ.S) :
    SimR G (Daab.dynStateMut Y ord p f s) (Daab.dynStateMut Y ord' p f t) := by
  obtain ⟨he, hsim⟩ := h.invalidate hs ht ord ord' hp
  obtain ⟨c, e1, d1⟩ := invalidate_spec hs ord p
  obtain ⟨d, e2, d2⟩ := invalidate_spec ht ord' p
  unfold Daab.dynStateMut
  rw [e1, e2] at hsim
  rw [e1, e2]
  simp only at hsim ⊢
  have h1 := hsim.ensureDyn (Y := Y) hp
  generalize Daab.ensureDyn Y p { s with c := c.emit (.invalidate p) } = x at h1
  generalize Daab.ensureDyn Y p { t with c := d.emit (.invalidate p) } = y at h1
  obtain ⟨s1, r⟩ := x
  obtain ⟨t1, r'⟩ := y
  obtain ⟨he, h1⟩ := h1
  simp only at he h1
  obtain rfl := he.symm
  cases r with
  | val d =>
    simp only
    split
    · refine ⟨rfl, ?_⟩
      have := h1.setDyn (a := p.id) (f d) s1.w (.setDyn p (f d))
      exact { this with w := h1.w }
    · exact ⟨rfl, h1⟩
  | panic k => exact ⟨rfl, h1⟩
  | stuck => exact ⟨rfl, h1⟩
  | overflow => exact ⟨rfl, h1⟩

theorem Sim.clearArtifacts (h : Sim G s t) :
    Sim G (s.onCache Daab.clearArtifacts) (t.onCache Daab.clearArtifacts) := by
  have e : ∀ (c : Cache σ) u d, ¬ Dep (Daab.clearArtifacts c) u d := by
    intro c u d
    simp [Daab.clearArtifacts, Dep, setAt, Cache.emit]
  refine { h with art := ?_, dep := ?_, closed := ?_, stray := ?_, leafG := ?_ }
  · intro a _; simp [St.onCache, Daab.clearArtifacts, Cache.emit]
  · intro u d _
    exact ⟨fun hh => absurd hh (e _ _ _), fun hh => absurd hh (e _ _ _)⟩
  · intro u d hh; exact absurd hh (e _ _ _)
  · intro a ha
    have ha' : a ∉ s.c.known := ha
    have hg : ¬ G a := fun hg => ha' (h.gknown a hg)
    have := h.stray a ha
    have hk := h.mem hg
    simp only [St.onCache, Daab.clearArtifacts, Cache.emit, mem_foldl_insert, ExtTreeMap.mem_keys, this, hk]
  · intro a ha
    have := h.leafG a ha
    have hk : a ∉ t.c.known := by
      rw [mem_getElem, h.knownG a ha]; rintro ⟨_, h⟩; cases h
    simp only [St.onCache, Daab.clearArtifacts, Cache.emit, mem_foldl_insert, ExtTreeMap.mem_keys, this, hk]
    simp

theorem Sim.clearAll (h : Sim G s t) :
    Sim (fun _ => False) (s.onCache Daab.clearAll) (t.onCache Daab.clearAll) := by
  constructor
  · exact h.w
  · exact h.heap
  · exact h.born
  all_goals simp [St.onCache, Daab.clearAll, Cache.emit, Dep, setAt]

theorem Sim.gc (h : Sim G s t) (hs : Inv Y s) (ht : Inv Y t) (ord ord' : HashOrder) :
    (garbageCollection Y ord' t).2 = (garbageCollection Y ord s).2 ∧
    ∃ G' : Id → Prop, ((∀ a, ¬ G a) → ∀ a, ¬ G' a) ∧
      Sim G' { s with c := (garbageCollection Y ord s).1 } { t with c := (garbageCollection Y ord' t).1 } := by
  have unk : ∀ a, a ∈ t.c.leafs → a ∉ t.c.known → a ∈ s.c.leafs ∧ a ∉ s.c.known := by
    intro a h1 h2
    have hg : ¬ G a := fun hg => h.leafG a hg h1
    have : a ∉ s.c.known := by rw [← h.mem hg]; exact h2
    exact ⟨(h.stray a this).1 h1, this⟩
  have unk' : ∀ a, a ∈ s.c.leafs → a ∉ s.c.known → a ∈ t.c.leafs ∧ a ∉ t.c.known := by
    intro a h1 h2
    have hg : ¬ G a := fun hg => h2 (h.gknown a hg)
    exact ⟨(h.stray a h2).2 h1, by rw [h.mem hg]; exact h2⟩
  rcases gc_spec hs ord with ⟨e1, a, ha1, ha2⟩ | ⟨n1, c, e1, w1, -⟩ <;>
    rcases gc_spec ht ord' with ⟨e2, b, hb1, hb2⟩ | ⟨n2, d, e2, w2, -⟩
  · rw [e1, e2]; exact ⟨rfl, G, id, h⟩
  · obtain ⟨h1, h2⟩ := unk' a ha1 ha2
    exact absurd (n2 a h1) h2
  · obtain ⟨h1, h2⟩ := unk b hb1 hb2
    exact absurd (n1 b h1) h2
  rw [e1, e2]
  refine ⟨rfl, fun a => (G a ∨ Garbage t a) ∧ ¬ Garbage s a, ?_, ?_⟩
  · rintro he a ⟨hg | ⟨b, h1, h2, h3⟩, hn⟩
    · exact he a hg
    · refine hn ⟨b, ?_, ?_, ?_⟩
      · rw [← h.known a (he a)]; exact h1
      · rw [← h.heap]; exact h2
      · intro u hu; exact h3 u ((h.dep u a (he u)).2 hu)
  -- a dropped builder of the larger cache is dropped in the smaller one or was not there
  have sub : ∀ a, ¬ G a → Garbage s a → Garbage t a := by
    rintro a hg ⟨b, h1, h2, h3⟩
    refine ⟨b, ?_, ?_, ?_⟩
    · rw [h.known a hg]; exact h1
    · rw [h.heap]; exact h2
    · intro u hu; exact h3 u (h.depT ht hu).2.2
  have tk : ∀ a, Garbage t a → ¬ G a := by
    rintro a ⟨b, h1, _⟩ hg
    rw [h.knownG a hg] at h1; cases h1
  have noDepG : ∀ a u, G a → ¬ Dep t.c u a := fun a u hg hu => (h.depT ht hu).2.1 hg
  have artG : ∀ a, G a → t.c.artifacts[a]? = none := by
    intro a hg
    have hk := h.knownG a hg
    have h1 := ht.artDyn a
    have h2 := ht.dynKnown a
    grind
  have dynG : ∀ a, G a → t.c.dynStates[a]? = none := by
    intro a hg
    have hk := h.knownG a hg
    have h2 := ht.dynKnown a
    grind
  constructor
  · exact h.w
  · exact h.heap
  · exact h.born
  · rintro a ⟨hg | ⟨b, h1, h2, h3⟩, hn⟩
    · exact h.gone a hg
    · simp only
      rw [← h.heap]
      cases hh : t.heap[a]? with
      | none => rfl
      | some b' =>
        have := ht.heapKnown a b b' h1 hh
        subst this
        exact absurd hh h2
  · rintro a ⟨hg, hn⟩
    have : a ∈ s.c.known := by
      rcases hg with hg | hg
      · exact h.gknown a hg
      · rw [← h.mem (tk a hg)]
        obtain ⟨b, h1, _⟩ := hg
        exact (mem_getElem _ _).2 ⟨b, h1⟩
    rw [mem_getElem] at this ⊢
    rw [w1.known_keep a hn]
    exact this
  · rintro a ⟨hg, hn⟩
    by_cases hL : Garbage t a
    · exact w2.known_none a hL
    · rw [w2.known_keep a hL]
      exact h.knownG a (hg.resolve_right hL)
  · intro a ha
    simp only
    by_cases hS : Garbage s a
    · rw [w1.known_none a hS]
      by_cases hL : Garbage t a
      · exact w2.known_none a hL
      · rw [w2.known_keep a hL]
        by_cases hg : G a
        · exact h.knownG a hg
        · exact absurd (sub a hg hS) hL
    · have hh : ¬ G a ∧ ¬ Garbage t a := by
        constructor
        · exact fun hg => ha ⟨Or.inl hg, hS⟩
        · exact fun hg => ha ⟨Or.inr hg, hS⟩
      rw [w1.known_keep a hS, w2.known_keep a hh.2, h.known a hh.1]
  · intro a ha
    simp only
    by_cases hS : Garbage s a
    · rw [w1.art_none a hS]
      by_cases hL : Garbage t a
      · exact w2.art_none a hL
      · rw [w2.art_keep a hL]
        by_cases hg : G a
        · exact artG a hg
        · exact absurd (sub a hg hS) hL
    · have hh : ¬ G a ∧ ¬ Garbage t a := by
        constructor
        · exact fun hg => ha ⟨Or.inl hg, hS⟩
        · exact fun hg => ha ⟨Or.inr hg, hS⟩
      rw [w1.art_keep a hS, w2.art_keep a hh.2, h.art a hh.1]
  · intro a ha
    simp only
    by_cases hS : Garbage s a
    · rw [w1.dyn_none a hS]
      by_cases hL : Garbage t a
      · exact w2.dyn_none a hL
      · rw [w2.dyn_keep a hL]
        by_cases hg : G a
        · exact dynG a hg
        · exact absurd (sub a hg hS) hL
    · have hh : ¬ G a ∧ ¬ Garbage t a := by
        constructor
        · exact fun hg => ha ⟨Or.inl hg, hS⟩
        · exact fun hg => ha ⟨Or.inr hg, hS⟩
      rw [w1.dyn_keep a hS, w2.dyn_keep a hh.2, h.dyn a hh.1]
  · intro u d hu
    simp only [w1.dep, w2.dep]
    by_cases hS : Garbage s u
    · by_cases hg : G u
      · have : ¬ Dep t.c u d := fun hd => (h.depT ht hd).1 hg
        simp [this, hS]
      · simp [hS, sub u hg hS]
    · have hh : ¬ G u ∧ ¬ Garbage t u := by
        constructor
        · exact fun hg => hu ⟨Or.inl hg, hS⟩
        · exact fun hg => hu ⟨Or.inr hg, hS⟩
      simp [hS, hh.2, h.dep u d hh.1]
  · rintro u d hu ⟨hd, hn⟩
    rw [w1.dep] at hu
    refine ⟨Or.inl ?_, hu.2⟩
    rcases hd with hd | hd
    · exact h.closed u d hu.1 hd
    · by_cases hg : G u
      · exact hg
      · obtain ⟨_, _, _, h3⟩ := hd
        exact absurd ((h.dep u d hg).2 hu.1) (h3 u)
  · intro a ha
    simp only at ha ⊢
    rw [w1.leafs, w2.leafs]
    by_cases hS : Garbage s a
    · by_cases hg : G a
      · simp [hS, h.leafG a hg, noDepG a _ hg]
      · simp [hS, sub a hg hS]
    · have hk : a ∉ s.c.known := by
        intro hk
        refine ha ?_
        rw [mem_getElem] at hk ⊢
        rw [w1.known_keep a hS]; exact hk
      have hg : ¬ G a := fun hg => hk (h.gknown a hg)
      have hkt : a ∉ t.c.known := by rw [h.mem hg]; exact hk
      have hL : ¬ Garbage t a := by
        rintro ⟨b, h1, _⟩
        exact hkt ((mem_getElem _ _).2 ⟨b, h1⟩)
      have d1 : ∀ u, ¬ Dep s.c u a := fun u hu => hk (hs.depD _ _ hu)
      have d2 : ∀ u, ¬ Dep t.c u a := fun u hu => hkt (ht.depD _ _ hu)
      simp [hS, hL, h.stray a hk, d1, d2]
  · rintro a ⟨hg, hn⟩
    simp only
    rw [w2.leafs]
    rcases hg with hg | hg
    · simp [h.leafG a hg, noDepG a _ hg]
    · simp [hg]

theorem Sim.numKnown (h : Sim G s t) (hG : ∀ a, ¬ G a) : Daab.numKnown t.c = Daab.numKnown s.c := by
  have : t.c.known = s.c.known := by
    ext a b
    rw [h.known a (hG a)]
  unfold Daab.numKnown
  rw [this]

/-- What `step_sim` claims of one operation. -/
def StepSim (G : Id → Prop) (x y : St σ × Res (Ans σ)) : Prop :=
  y.2 = x.2 ∧ ∃ G' : Id → Prop, ((∀ a, ¬ G a) → ∀ a, ¬ G' a) ∧ Sim G' x.1 y.1

theorem StepSim.of {x y : St σ × Res (Ans σ)} (h1 : y.2 = x.2) (h2 : Sim G x.1 y.1) : StepSim G x y :=
  ⟨h1, G, id, h2⟩

theorem Sim.exec (h : Sim G s t) (hs : Inv Y s) (ht : Inv Y t) (n : Nat) (ord ord' : HashOrder)
    (op : Op σ) (hl : ∀ p, op.promise? = some p → s.live p = true)
    (hgo : (exec Y n ord s op).2.goesOn) (hop : op = .numKnown → ∀ a, ¬ G a) :
    StepSim G (exec Y n ord s op) (exec Y n ord' t op) := by
  cases op with
  | get how p =>
    have h1 := (buildN_sim (Y := Y) (G := G) n).2 how p s t h
    simp only [Daab.exec] at *
    have : (getA Y n how p s).2 ≠ .stuck := by
      intro he; rw [he] at hgo; exact hgo
    obtain ⟨h2, h3⟩ := h1 this
    exact StepSim.of (by rw [h2]) h3
  | getMut p f =>
    have hlp := hl p rfl
    have hp := h.notG hlp
    simp only [Daab.exec] at hgo ⊢
    have key : (getMut Y ord (buildN Y n) p s).2 = .panic .noCounterpart ∨
        (getMut Y ord (buildN Y n) p s).2 = .stuck ∨
        SimR G (getMut Y ord (buildN Y n) p s) (getMut Y ord' (buildN Y n) p t) := by
      rcases h.lookupMut hs ht ord ord' hlp with h1 | ⟨c, d, e1, e2, i1, i2, h2⟩
      · left
        unfold getMut
        generalize Daab.lookupMut Y ord p s.c = x at h1
        obtain ⟨c, r⟩ := x
        simp only at h1
        subst h1
        rfl
      · right
        unfold getMut
        rw [e1, e2]
        cases ha : c.artifacts[p.id]? with
        | none =>
          simp only
          by_cases hst : (fresh Y p (buildN Y n p { s with c := c })).2 = .stuck
          · exact Or.inl hst
          · exact Or.inr (fresh_sim ((buildN_sim n).1 p _ _ h2 hp (fresh_ns hst)))
        | some v =>
          right
          simp only
          rcases h2.lookupMut i1 i2 ord ord' (p := p) hlp with h1 | ⟨c2, d2, e3, e4, _, _, h4⟩
          · exfalso
            obtain ⟨c', e', hall, hno⟩ : ∃ c', Daab.invalidateDependents Y ord p.id s.c = (c', .done) ∧ True ∧ (∀ x, ¬ Dep c' x p.id) := by
              rcases lookupMut_spec hs ord hlp with ⟨c'', e, _⟩ | ⟨c'', e, hd⟩
              · rw [e1] at e; cases e
              · rcases hs.invalidateDependents ord p.id with ⟨c', he, _⟩ | ⟨c', he, _, _, hno, _⟩
                · rw [hd] at he; cases he
                · exact ⟨c', he, trivial, hno⟩
            have hcc : c' = c := by
              rcases lookupMut_spec hs ord hlp with ⟨c'', e, _⟩ | ⟨c'', e, hd⟩
              · rw [e1] at e; cases e
              · rw [e1] at e; rw [hd] at e'
                cases e'; cases e; rfl
            subst hcc
            rcases lookupMut_spec i1 ord (p := p) hlp with ⟨_, _, x, _, hx⟩ | ⟨_, e, _⟩
            · exact hno x hx
            · rw [e] at h1; cases h1
          · simp only at e3 e4
            rw [e3, e4]
            cases hc2 : c2.artifacts[p.id]? with
            | none => exact ⟨rfl, h4⟩
            | some v => exact ⟨rfl, h4⟩
    generalize getMut Y ord (buildN Y n) p s = x at key hgo
    generalize getMut Y ord' (buildN Y n) p t = y at key
    obtain ⟨s1, r⟩ := x
    obtain ⟨t1, r'⟩ := y
    rcases key with rfl | rfl | ⟨he, h1⟩
    · exact absurd rfl hgo
    · exact absurd hgo id
    · simp only at he h1
      obtain rfl := he.symm
      rcases r with (e | v) | k | _ | _
      · exact StepSim.of rfl h1
      · simp only at hgo ⊢
        cases hw : Daab.writeArt Y p f v s1.c with
        | none => rw [hw] at hgo; exact absurd hgo id
        | some c =>
          obtain ⟨d, hd, h2⟩ := h1.writeArt hw
          simp only [hd]
          exact StepSim.of rfl h2
      · exact StepSim.of rfl h1
      · exact StepSim.of rfl h1
      · exact StepSim.of rfl h1
  | lookup how p =>
    have hp := h.notG (hl p rfl)
    simp only [Daab.exec]
    refine StepSim.of ?_ h
    have : lookupBy Y how p t.c = lookupBy Y how p s.c := by
      have h1 := h.lookup (Y := Y) hp
      have h2 := h.lookupRef (Y := Y) hp
      cases how with
      | bin => exact h1
      | ref => exact h2
      | cloned => simp only [lookupBy, lookupCloned, h2]
    rw [this]
  | lookupMut p f =>
    have hlp := hl p rfl
    simp only [Daab.exec] at hgo ⊢
    rcases h.lookupMut hs ht ord ord' hlp with h1 | ⟨c, d, e1, e2, i1, i2, h2⟩
    · exfalso
      generalize Daab.lookupMut Y ord p s.c = x at h1 hgo
      obtain ⟨c, r⟩ := x
      simp only at h1
      subst h1
      exact hgo rfl
    · rw [e1] at hgo ⊢
      rw [e2]
      cases ha : c.artifacts[p.id]? with
      | none => exact StepSim.of rfl h2
      | some v =>
        rw [ha] at hgo
        simp only at hgo ⊢
        cases hw : Daab.writeArt Y p f v c with
        | none => rw [hw] at hgo; exact absurd hgo id
        | some c' =>
          obtain ⟨d', hd, h3⟩ := h2.writeArt (s := { s with c := c }) hw
          simp only at hd
          simp only [hd]
          exact StepSim.of rfl h3
  | dynState p =>
    obtain ⟨h1, h2⟩ := h.ensureDyn (Y := Y) (h.notG (hl p rfl))
    simp only [Daab.exec]
    exact StepSim.of (by rw [h1]) h2
  | getDynState p =>
    have hp := h.notG (hl p rfl)
    simp only [Daab.exec]
    refine StepSim.of ?_ h
    simp only [Daab.getDynState, h.dyn p.id hp, h.isKnown hp]
  | dynStateMut p f =>
    obtain ⟨h1, h2⟩ := h.dynStateMut hs ht ord ord' (h.notG (hl p rfl)) f
    simp only [Daab.exec]
    exact StepSim.of (by rw [h1]) h2
  | isKnown p =>
    simp only [Daab.exec]
    exact StepSim.of (by rw [h.isKnown (h.notG (hl p rfl))]) h
  | numKnown =>
    simp only [Daab.exec]
    exact StepSim.of (by rw [h.numKnown (hop rfl)]) h
  | invalidate p =>
    obtain ⟨h1, h2⟩ := h.invalidate hs ht ord ord' (h.notG (hl p rfl))
    simp only [Daab.exec]
    exact StepSim.of (by rw [h1]) h2
  | purge p =>
    obtain ⟨h1, h2⟩ := h.purge hs ht ord ord' (h.notG (hl p rfl))
    simp only [Daab.exec]
    exact StepSim.of (by rw [h1]) h2
  | clearArtifacts => exact StepSim.of rfl h.clearArtifacts
  | clearAll => exact ⟨rfl, _, fun _ _ => id, h.clearAll⟩
  | gc =>
    obtain ⟨h1, G', h2, h3⟩ := h.gc hs ht ord ord'
    simp only [Daab.exec]
    exact ⟨by rw [h1], G', h2, h3⟩
  | alloc p =>
    simp only [Daab.exec] at hgo ⊢
    cases ha : allocB p s with
    | none => rw [ha] at hgo; exact absurd hgo id
    | some s1 =>
      obtain ⟨t1, h1, h2⟩ := h.alloc ha
      rw [h1]
      exact StepSim.of rfl h2
  | free a => exact StepSim.of rfl (h.free a)
  | world f =>
    simp only [Daab.exec, h.w]
    exact StepSim.of rfl (h.world _)

theorem Sim.step (h : Sim G s t) (hs : Inv Y s) (ht : Inv Y t) (n : Nat) (ord ord' : HashOrder)
    (op : Op σ) (hgo : (step Y n ord s op).2.goesOn) (hop : op = .numKnown → ∀ a, ¬ G a) :
    StepSim G (step Y n ord s op) (step Y n ord' t op) := by
  unfold Daab.step at *
  cases hpr : op.promise? with
  | none =>
    rw [hpr] at hgo
    simp only at hgo ⊢
    exact h.exec hs ht n ord ord' op (by rw [hpr]; intro p hp; cases hp) hgo hop
  | some p =>
    rw [hpr] at hgo
    simp only [h.live] at hgo ⊢
    by_cases hl : s.live p = true
    · rw [if_pos hl] at hgo ⊢
      rw [if_pos hl]
      exact h.exec hs ht n ord ord' op (by rw [hpr]; intro q hq; cases hq; exact hl) hgo hop
    · rw [if_neg hl] at hgo
      exact absurd hgo id

end Daab
