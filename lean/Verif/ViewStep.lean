import Verif.View
import Verif.SimStep

/-! # Every operation keeps the relation `View` -/

open Std

namespace Daab

variable {σ : Sig} {Y : Sys σ} {K : Component σ} {s t : St σ}

theorem View.depT (h : View K s t) (ht : Inv Y t) {u d : Id} (hd : Dep t.c u d) :
    K.addr u = true ∧ K.addr d = true ∧ Dep s.c u d := by
  have hu : K.addr u = true := by
    cases hg : K.addr u with
    | true => rfl
    | false =>
      have := ht.depU _ _ hd
      rw [mem_getElem, h.knownOut u hg] at this
      obtain ⟨_, h⟩ := this
      cases h
  have h1 := (h.dep u d hu).1 hd
  exact ⟨hu, by rw [← h.apart _ _ h1]; exact hu, h1⟩

theorem View.hitAddr (h : View K s t) {a x : Id} (hh : Hit (Dep s.c) a x) : K.addr x = K.addr a := by
  induction hh using Relation.ReflTransGen.head_induction_on with
  | refl => rfl
  | head h1 _ ih => rw [h.apart _ _ h1, ih]

theorem View.hit (h : View K s t) (ht : Inv Y t) {a x : Id} (ha : K.addr a = true) :
    Hit (Dep t.c) a x ↔ Hit (Dep s.c) a x := by
  constructor
  · exact fun hh => Relation.ReflTransGen.mono (fun u d hud => (h.depT ht hud).2.2) _ _ hh
  · intro hh
    induction hh using Relation.ReflTransGen.head_induction_on with
    | refl => exact Relation.ReflTransGen.refl
    | head h1 h2 ih =>
      have hx := h.apart _ _ h1
      rw [h.hitAddr h2, ha] at hx
      exact Relation.ReflTransGen.head ((h.dep _ _ hx).2 h1) ih

theorem View.dropped (h : View K s t) (hs : Inv Y s) (ht : Inv Y t) {P Q : Id → Prop} {c d : Cache σ}
    (h1 : Dropped P s.c c) (h2 : Dropped Q t.c d)
    (hP : ∀ u d, Dep s.c u d → P d → P u) (hQ : ∀ u d, Dep t.c u d → Q d → Q u)
    (hPQ : ∀ x, Q x ↔ P x) (hPa : ∀ x, P x → K.addr x = true) :
    View K { s with c := c } { t with c := d } := by
  have k1 := h1.known
  have k2 := h2.known
  have y1 := h1.dynStates
  have y2 := h2.dynStates
  refine { h with knownOut := ?_, known := ?_, art := ?_, dyn := ?_, dep := ?_, apart := ?_, stray := ?_,
                  leafOut := ?_ }
  · intro a ha; simp only [k2]; exact h.knownOut a ha
  · intro a ha; simp only [k1, k2]; exact h.known a ha
  · intro a ha
    simp only
    by_cases hp : P a
    · rw [h1.art_none a hp, h2.art_none a ((hPQ a).2 hp)]
    · rw [h1.art_keep a hp, h2.art_keep a (fun hq => hp ((hPQ a).1 hq)), h.art a ha]
  · intro a ha; simp only [y1, y2]; exact h.dyn a ha
  · intro u d hu
    simp only
    rw [h1.dep' hP, h2.dep' hQ, h.dep u d hu, hPQ u]
  · intro u d hu
    simp only at hu
    rw [h1.dep' hP] at hu
    exact h.apart u d hu.1
  · intro a ha hx
    simp only [k1] at hx ⊢
    rw [h1.leafs, h2.leafs, h.stray a ha hx, hPQ a]
    have n1 : ∀ u, ¬ Dep s.c u a := fun u hu => hx (hs.depD _ _ hu)
    have n2 : ∀ u, ¬ Dep t.c u a := fun u hu => n1 u ((h.depT ht hu).2.2)
    simp [n1, n2]
  · intro a ha
    simp only [h2.leafs]
    have n2 : ∀ u, ¬ Dep t.c u a := fun u hu => by
      have := (h.depT ht hu).2.1; rw [ha] at this; cases this
    have hq : ¬ Q a := fun hq => by
      have := hPa a ((hPQ a).1 hq); rw [ha] at this; cases this
    simp [n2, h.leafOut a ha, hq]

theorem View.frame_dropped (h : View K s t) (hs : Inv Y s) {P : Id → Prop} {c : Cache σ}
    (h1 : Dropped P s.c c) (hP : ∀ u d, Dep s.c u d → P d → P u) (hPa : ∀ x, P x → K.addr x = false) :
    View K { s with c := c } t := by
  have hn : ∀ x, K.addr x = true → ¬ P x := fun x hx hp => by
    have := hPa x hp; rw [hx] at this; cases this
  refine h.frame h.w (fun _ _ => rfl) h.placed (fun _ hb => hb) ?_ ?_ ?_ ?_ ?_ ?_
  · intro a _; simp only [h1.known]
  · intro a ha; exact h1.art_keep a (hn a ha)
  · intro a _; simp only [h1.dynStates]
  · intro u d hu
    simp only
    rw [h1.dep' hP]
    simp [hn u hu]
  · intro u d hu
    simp only at hu
    rw [h1.dep' hP] at hu
    exact h.apart u d hu.1
  · intro a ha hx
    simp only
    rw [h1.leafs]
    have n1 : ∀ u, ¬ Dep s.c u a := fun u hu => hx (hs.depD _ _ hu)
    simp [n1, hn a ha]

theorem View.invalidate (h : View K s t) (hs : Inv Y s) (ht : Inv Y t) (ord ord' : HashOrder)
    {p : Promise σ} (hp : K.addr p.id = true) :
    (Daab.invalidate Y ord' p t.c).2 = (Daab.invalidate Y ord p s.c).2 ∧
    View K { s with c := (Daab.invalidate Y ord p s.c).1 } { t with c := (Daab.invalidate Y ord' p t.c).1 } := by
  obtain ⟨c, e1, d1⟩ := invalidate_spec hs ord p
  obtain ⟨d, e2, d2⟩ := invalidate_spec ht ord' p
  rw [e1, e2]
  refine ⟨rfl, ?_⟩
  have := h.dropped hs ht d1 d2 (hit_closed _ _) (hit_closed _ _)
    (fun x => h.hit ht hp) (fun x hx => by rw [h.hitAddr hx]; exact hp)
  exact this.emit _ _

theorem View.frame_invalidate (h : View K s t) (hs : Inv Y s) (ord : HashOrder)
    {p : Promise σ} (hp : K.addr p.id = false) :
    View K { s with c := (Daab.invalidate Y ord p s.c).1 } t := by
  obtain ⟨c, e1, d1⟩ := invalidate_spec hs ord p
  rw [e1]
  exact (h.frame_dropped hs d1 (hit_closed _ _)
    (fun x hx => by rw [h.hitAddr hx]; exact hp)).frame_emit _

theorem View.purge (h : View K s t) (hs : Inv Y s) (ht : Inv Y t) (ord ord' : HashOrder)
    {p : Promise σ} (hp : K.addr p.id = true) :
    (Daab.purge Y ord' p t.c).2 = (Daab.purge Y ord p s.c).2 ∧
    View K { s with c := (Daab.purge Y ord p s.c).1 } { t with c := (Daab.purge Y ord' p t.c).1 } := by
  obtain ⟨c, cF, e1, d1, rfl⟩ := purge_spec hs ord p
  obtain ⟨d, dF, e2, d2, rfl⟩ := purge_spec ht ord' p
  rw [e1, e2]
  refine ⟨rfl, ?_⟩
  have hh := h.dropped hs ht d1 d2 (hit_closed _ _) (hit_closed _ _)
    (fun x => h.hit ht hp) (fun x hx => by rw [h.hitAddr hx]; exact hp)
  refine { hh with knownOut := ?_, known := ?_, dyn := ?_, stray := ?_ }
  · intro a ha
    have := h.knownOut a ha
    simp only
    grind
  · intro a ha
    have := h.known a ha
    simp only
    grind
  · intro a ha
    have := h.dyn a ha
    simp only
    grind
  · intro a ha hx
    simp only at hx ⊢
    by_cases hap : a = p.id
    · subst hap
      rw [d1.leafs, d2.leafs]
      have r1 : Hit (Dep s.c) p.id p.id := Relation.ReflTransGen.refl
      have r2 : Hit (Dep t.c) p.id p.id := Relation.ReflTransGen.refl
      simp [r1, r2]
    · have := hh.stray a ha
      simp only [d1.known] at this
      exact this (by grind)

theorem View.frame_purge (h : View K s t) (hs : Inv Y s) (ord : HashOrder)
    {p : Promise σ} (hp : K.addr p.id = false) : View K { s with c := (Daab.purge Y ord p s.c).1 } t := by
  obtain ⟨c, cF, e1, d1, rfl⟩ := purge_spec hs ord p
  rw [e1]
  have hh := h.frame_dropped hs d1 (hit_closed _ _) (fun x hx => by rw [h.hitAddr hx]; exact hp)
  have hne : ∀ a, K.addr a = true → a ≠ p.id := by rintro a ha rfl; rw [hp] at ha; cases ha
  refine { hh with known := ?_, dyn := ?_, stray := ?_ }
  · intro a ha
    have := h.known a ha
    have := hne a ha
    simp only
    grind
  · intro a ha
    have := h.dyn a ha
    have := hne a ha
    simp only
    grind
  · intro a ha hx
    have hap := hne a ha
    simp only at hx ⊢
    have := hh.stray a ha
    simp only [d1.known] at this
    exact this (by grind)

theorem dep_erase {c : Cache σ} {a : Id} (hn : ∀ x, ¬ Dep c x a) (u d : Id) :
    u ∈ setAt (c.dependents.erase a) d ↔ Dep c u d := by
  unfold Dep setAt at *
  have := hn u
  grind

theorem View.invalidateDependents (h : View K s t) (hs : Inv Y s) (ht : Inv Y t) (ord ord' : HashOrder)
    {a : Id} (ha : K.addr a = true) {c : Cache σ} (hc : Daab.invalidateDependents Y ord a s.c = (c, .done)) :
    ∃ d, Daab.invalidateDependents Y ord' a t.c = (d, .done) ∧
      View K { s with c := c } { t with c := d } := by
  rcases hs.invalidateDependents ord a with ⟨c', he, _⟩ | ⟨c', he, hall, _⟩
  · rw [hc] at he; cases he
  have hallT : ∀ x, Dep t.c x a → x = a := fun x hx => hall x (h.depT ht hx).2.2
  by_cases hself : Dep s.c a a
  · obtain ⟨c1, e1, d1⟩ := invalidateDependents_self Y ord a s.c hs.sync hself hall
    obtain ⟨c2, e2, d2⟩ := invalidateDependents_self Y ord' a t.c ht.sync ((h.dep a a ha).2 hself) hallT
    rw [e1] at hc
    cases hc
    refine ⟨_, e2, ?_⟩
    have := h.dropped hs ht d1 d2 (by rintro u d hd rfl; exact hall u hd)
      (by rintro u d hd rfl; exact hallT u hd) (fun x => Iff.rfl) (by rintro x rfl; exact ha)
    exact this.emit _ _
  · have hno : ∀ x, ¬ Dep s.c x a := by
      intro x hx
      have := hall x hx
      subst this
      exact hself hx
    have hnoT : ∀ x, ¬ Dep t.c x a := fun x hx => hno x (h.depT ht hx).2.2
    rw [invalidateDependents_none Y ord a s.c hno] at hc
    cases hc
    refine ⟨_, invalidateDependents_none Y ord' a t.c hnoT, ?_⟩
    refine { h with dep := ?_, apart := ?_, stray := ?_, leafOut := ?_ }
    · intro u d hu
      simp only [Cache.emit]
      unfold Dep
      simp only
      rw [dep_erase hnoT, dep_erase hno, h.dep u d hu]
    · intro u d hu
      simp only [Cache.emit] at hu
      unfold Dep at hu
      simp only at hu
      rw [dep_erase hno] at hu
      exact h.apart u d hu
    · intro x hx hk
      have := h.stray x hx hk
      simp only [Cache.emit]
      grind
    · intro x hx
      have := h.leafOut x hx
      have : x ≠ a := by rintro rfl; rw [ha] at hx; cases hx
      simp only [Cache.emit]
      grind

theorem View.frame_invalidateDependents (h : View K s t) (hs : Inv Y s) (ord : HashOrder)
    {a : Id} (ha : K.addr a = false) {c : Cache σ} (hc : Daab.invalidateDependents Y ord a s.c = (c, .done)) :
    View K { s with c := c } t := by
  rcases hs.invalidateDependents ord a with ⟨c', he, _⟩ | ⟨c', he, hall, _⟩
  · rw [hc] at he; cases he
  by_cases hself : Dep s.c a a
  · obtain ⟨c1, e1, d1⟩ := invalidateDependents_self Y ord a s.c hs.sync hself hall
    rw [e1] at hc
    cases hc
    exact (h.frame_dropped hs d1 (by rintro u d hd rfl; exact hall u hd)
      (by rintro x rfl; exact ha)).frame_emit _
  · have hno : ∀ x, ¬ Dep s.c x a := by
      intro x hx
      have := hall x hx
      subst this
      exact hself hx
    rw [invalidateDependents_none Y ord a s.c hno] at hc
    cases hc
    refine h.frame h.w (fun _ _ => rfl) h.placed (fun _ hb => hb) (fun _ _ => rfl) (fun _ _ => rfl)
      (fun _ _ => rfl) ?_ ?_ ?_
    · intro u d hu
      simp only [Cache.emit]
      unfold Dep
      simp only
      rw [dep_erase hno]; exact Iff.rfl
    · intro u d hu
      simp only [Cache.emit] at hu
      unfold Dep at hu
      simp only at hu
      rw [dep_erase hno] at hu
      exact h.apart u d hu
    · intro x hx hk
      have : x ≠ a := by rintro rfl; rw [ha] at hx; cases hx
      simp only [Cache.emit]
      grind

theorem View.lookupMut (h : View K s t) (hs : Inv Y s) (ht : Inv Y t) (ord ord' : HashOrder)
    {p : Promise σ} (hl : s.live p = true) (hp : K.addr p.id = true) :
    (Daab.lookupMut Y ord p s.c).2 = .panic .noCounterpart ∨
    ∃ c d, Daab.lookupMut Y ord p s.c = (c, .val (c.artifacts[p.id]?)) ∧
      Daab.lookupMut Y ord' p t.c = (d, .val (c.artifacts[p.id]?)) ∧
      Inv Y { s with c := c } ∧ Inv Y { t with c := d } ∧ View K { s with c := c } { t with c := d } := by
  have hlt : t.live p = true := by rw [h.live hp, hl]
  rcases lookupMut_spec hs ord hl with ⟨c, e, _⟩ | ⟨c, e, hd⟩
  · left; rw [e]
  · right
    obtain ⟨d, e2, hsim⟩ := h.invalidateDependents hs ht ord ord' hp hd
    rcases lookupMut_spec ht ord' hlt with ⟨d', _, x, hx1, hx2⟩ | ⟨d', e3, hd'⟩
    · rcases hs.invalidateDependents ord p.id with ⟨c', he, _⟩ | ⟨c', he, hall, _⟩
      · rw [hd] at he; cases he
      · exact absurd (hall x (h.depT ht hx2).2.2) hx1
    · rw [e2] at hd'
      cases hd'
      have i1 : Inv Y { s with c := c } := by
        rcases hs.invalidateDependents ord p.id with ⟨c', he, _⟩ | ⟨c', he, _, hi, _⟩
        · rw [hd] at he; cases he
        · rw [hd] at he; cases he; exact hi
      have i2 : Inv Y { t with c := d } := by
        rcases ht.invalidateDependents ord' p.id with ⟨c', he, _⟩ | ⟨c', he, _, hi, _⟩
        · rw [e2] at he; cases he
        · rw [e2] at he; cases he; exact hi
      refine ⟨c, d, e, ?_, i1, i2, hsim⟩
      rw [e3]
      have := hsim.art p.id hp
      simp only at this
      rw [this]

theorem View.frame_lookupMut (h : View K s t) (hs : Inv Y s) (ord : HashOrder)
    {p : Promise σ} (hl : s.live p = true) (hp : K.addr p.id = false) :
    (Daab.lookupMut Y ord p s.c).2 = .panic .noCounterpart ∨
    ∃ c, Daab.lookupMut Y ord p s.c = (c, .val (c.artifacts[p.id]?)) ∧
      Inv Y { s with c := c } ∧ View K { s with c := c } t := by
  rcases lookupMut_spec hs ord hl with ⟨c, e, _⟩ | ⟨c, e, hd⟩
  · left; rw [e]
  · right
    have i1 : Inv Y { s with c := c } := by
      rcases hs.invalidateDependents ord p.id with ⟨c', he, _⟩ | ⟨c', he, _, hi, _⟩
      · rw [hd] at he; cases he
      · rw [hd] at he; cases he; exact hi
    exact ⟨c, e, i1, h.frame_invalidateDependents hs ord hp hd⟩

theorem View.writeArt (h : View K s t) {p : Promise σ} {f : σ.V → σ.V} {v : σ.V} {c : Cache σ}
    (hc : Daab.writeArt Y p f v s.c = some c) :
    ∃ d, Daab.writeArt Y p f v t.c = some d ∧ View K { s with c := c } { t with c := d } := by
  unfold Daab.writeArt at *
  split at hc
  · next ht =>
    cases hc
    rw [if_pos ht]
    exact ⟨_, rfl, h.setArt _ _ _⟩
  · cases hc

theorem View.frame_writeArt (h : View K s t) {p : Promise σ} (hp : K.addr p.id = false) {f : σ.V → σ.V}
    {v : σ.V} {c : Cache σ} (hc : Daab.writeArt Y p f v s.c = some c) : View K { s with c := c } t := by
  unfold Daab.writeArt at *
  split at hc
  · cases hc
    exact h.frame_setArt hp _ _
  · cases hc

theorem View.dynStateMut (hK : K.Separate Y) (h : View K s t) (hs : Inv Y s) (ht : Inv Y t)
    (ord ord' : HashOrder) {p : Promise σ} (hp : K.addr p.id = true) (hb : K.part p.b = true)
    (f : σ.S → σ.S) : ViewR K (Daab.dynStateMut Y ord p f s) (Daab.dynStateMut Y ord' p f t) := by
  obtain ⟨he, hsim⟩ := h.invalidate hs ht ord ord' hp
  obtain ⟨c, e1, d1⟩ := invalidate_spec hs ord p
  obtain ⟨d, e2, d2⟩ := invalidate_spec ht ord' p
  unfold Daab.dynStateMut
  rw [e1, e2] at hsim
  rw [e1, e2]
  simp only at hsim ⊢
  have h1 := hsim.ensureDyn hK hp hb
  generalize Daab.ensureDyn Y p { s with c := c.emit (.invalidate p) } = x at h1
  generalize Daab.ensureDyn Y p { t with c := d.emit (.invalidate p) } = y at h1
  obtain ⟨s1, r⟩ := x
  obtain ⟨t1, r'⟩ := y
  obtain ⟨he, h1⟩ := h1
  simp only at he h1
  obtain rfl := he.symm
  cases r with
  | val d =>
    simp only
    split
    · exact ⟨rfl, h1.setDyn (a := p.id) (f d) h1.w _ _⟩
    · exact ⟨rfl, h1⟩
  | panic k => exact ⟨rfl, h1⟩
  | stuck => exact ⟨rfl, h1⟩
  | overflow => exact ⟨rfl, h1⟩

theorem View.frame_dynStateMut (hK : K.Separate Y) (h : View K s t) (hs : Inv Y s)
    (ord : HashOrder) {p : Promise σ} (hp : K.addr p.id = false) (hb : K.part p.b = false)
    (f : σ.S → σ.S) : View K (Daab.dynStateMut Y ord p f s).1 t := by
  have hsim := h.frame_invalidate hs ord hp
  obtain ⟨c, e1, d1⟩ := invalidate_spec hs ord p
  unfold Daab.dynStateMut
  rw [e1] at hsim ⊢
  simp only at hsim ⊢
  have h1 := hsim.frame_ensureDyn hK hp hb
  generalize Daab.ensureDyn Y p { s with c := c.emit (.invalidate p) } = x at h1
  obtain ⟨s1, r⟩ := x
  cases r with
  | val d =>
    simp only
    split
    · exact h1.frame_setDyn hp (f d) h1.w _
    · exact h1
  | panic k => exact h1
  | stuck => exact h1
  | overflow => exact h1

theorem View.clearArtifacts (h : View K s t) :
    View K (s.onCache Daab.clearArtifacts) (t.onCache Daab.clearArtifacts) := by
  have e : ∀ (c : Cache σ) u d, ¬ Dep (Daab.clearArtifacts c) u d := by
    intro c u d
    simp [Daab.clearArtifacts, Dep, setAt, Cache.emit]
  refine { h with art := ?_, dep := ?_, apart := ?_, stray := ?_, leafOut := ?_ }
  · intro a _; simp [St.onCache, Daab.clearArtifacts, Cache.emit]
  · intro u d _
    exact ⟨fun hh => absurd hh (e _ _ _), fun hh => absurd hh (e _ _ _)⟩
  · intro u d hh; exact absurd hh (e _ _ _)
  · intro a ha hx
    have := h.stray a ha hx
    have hk := h.mem ha
    simp only [St.onCache, Daab.clearArtifacts, Cache.emit, mem_foldl_insert, ExtTreeMap.mem_keys, this, hk]
  · intro a ha
    have := h.leafOut a ha
    have hk : a ∉ t.c.known := by
      rw [mem_getElem, h.knownOut a ha]; rintro ⟨_, h⟩; cases h
    simp only [St.onCache, Daab.clearArtifacts, Cache.emit, mem_foldl_insert, ExtTreeMap.mem_keys, this, hk]
    simp

theorem View.clearAll (h : View K s t) :
    View K (s.onCache Daab.clearAll) (t.onCache Daab.clearAll) := by
  constructor
  · exact h.w
  · exact h.heap
  · exact h.placed
  · exact h.born
  all_goals simp [St.onCache, Daab.clearAll, Cache.emit, Dep, setAt]

theorem View.gc (h : View K s t) (hs : Inv Y s) (ht : Inv Y t) (ord ord' : HashOrder)
    (hgo : (garbageCollection Y ord s).2 ≠ .panic .leafUnknown) :
    (garbageCollection Y ord' t).2 = (garbageCollection Y ord s).2 ∧
      View K { s with c := (garbageCollection Y ord s).1 } { t with c := (garbageCollection Y ord' t).1 } := by
  rcases gc_spec hs ord with ⟨e1, _⟩ | ⟨n1, c, e1, w1, -⟩
  · rw [e1] at hgo; exact absurd rfl hgo
  rcases gc_spec ht ord' with ⟨e2, b, hb1, hb2⟩ | ⟨n2, d, e2, w2, -⟩
  · exfalso
    have ha : K.addr b = true := by
      cases hg : K.addr b with
      | true => rfl
      | false => exact absurd hb1 (h.leafOut b hg)
    have hk : b ∉ s.c.known := by rw [← h.mem ha]; exact hb2
    exact hk (n1 b ((h.stray b ha hk).1 hb1))
  rw [e1, e2]
  refine ⟨rfl, ?_⟩
  have noDepT : ∀ a, K.addr a = true → ((∀ u, ¬ Dep t.c u a) ↔ ∀ u, ¬ Dep s.c u a) := by
    intro a ha
    constructor
    · intro hn u hu
      have := h.apart _ _ hu
      rw [ha] at this
      exact hn u ((h.dep u a this).2 hu)
    · intro hn u hu
      exact hn u (h.depT ht hu).2.2
  have garb : ∀ a, K.addr a = true → (Garbage t a ↔ Garbage s a) := by
    intro a ha
    unfold Garbage
    rw [h.known a ha, h.heap a ha]
    simp only [noDepT a ha]
  have garbOut : ∀ a, K.addr a = false → ¬ Garbage t a := by
    rintro a ha ⟨b, h1, _⟩
    rw [h.knownOut a ha] at h1; cases h1
  refine { h with knownOut := ?_, known := ?_, art := ?_, dyn := ?_, dep := ?_, apart := ?_, stray := ?_,
                  leafOut := ?_ }
  · intro a ha
    simp only
    rw [w2.known_keep a (garbOut a ha)]; exact h.knownOut a ha
  · intro a ha
    simp only
    by_cases hg : Garbage s a
    · rw [w1.known_none a hg, w2.known_none a ((garb a ha).2 hg)]
    · rw [w1.known_keep a hg, w2.known_keep a (fun x => hg ((garb a ha).1 x)), h.known a ha]
  · intro a ha
    simp only
    by_cases hg : Garbage s a
    · rw [w1.art_none a hg, w2.art_none a ((garb a ha).2 hg)]
    · rw [w1.art_keep a hg, w2.art_keep a (fun x => hg ((garb a ha).1 x)), h.art a ha]
  · intro a ha
    simp only
    by_cases hg : Garbage s a
    · rw [w1.dyn_none a hg, w2.dyn_none a ((garb a ha).2 hg)]
    · rw [w1.dyn_keep a hg, w2.dyn_keep a (fun x => hg ((garb a ha).1 x)), h.dyn a ha]
  · intro u d hu
    have h1 := w1.dts_mem d u
    have h2 := w2.dts_mem d u
    unfold Dep
    simp only
    rw [h1, h2, garb u hu]
    exact and_congr_left fun _ => h.dep u d hu
  · intro u d hu
    unfold Dep at hu
    simp only at hu
    rw [w1.dts_mem] at hu
    exact h.apart u d hu.1
  · intro a ha hx
    simp only
    rw [w1.leafs, w2.leafs, garb a ha]
    -- not known afterwards: collected, or it was not known before
    by_cases hg : Garbage s a
    · simp [hg]
    · simp only at hx
      have hk : a ∉ s.c.known := by
        rw [mem_getElem] at hx ⊢
        rw [← w1.known_keep a hg]; exact hx
      have n1 : ∀ u, ¬ Dep s.c u a := fun u hu => hk (hs.depD _ _ hu)
      have n2 := (noDepT a ha).2 n1
      have := h.stray a ha hk
      simp [n1, n2, this]
  · intro a ha
    simp only
    rw [w2.leafs]
    have n2 : ∀ u, ¬ Dep t.c u a := fun u hu => by
      have := (h.depT ht hu).2.1; rw [ha] at this; cases this
    simp [n2, h.leafOut a ha]

end Daab
