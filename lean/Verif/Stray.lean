import Verif.Anatomy
import Verif.Props3

/-! # Stray leafs: entries of the leaf set that are not known (finding 1) -/

open Std

namespace Daab

variable {σ : Sig} {Y : Sys σ} {s : St σ}

/-- An entry of the leaf set that is not known. -/
def StrayLeaf (c : Cache σ) (a : Id) : Prop := a ∈ c.leafs ∧ a ∉ c.known

/-- Nothing changes for ids which are still unknown afterwards. -/
def SameStray (c c' : Cache σ) : Prop :=
  ∀ a, a ∉ c'.known → a ∉ c.known ∧ (a ∈ c'.leafs ↔ a ∈ c.leafs)

theorem SameStray.refl (c : Cache σ) : SameStray c c := fun _ h => ⟨h, Iff.rfl⟩

theorem SameStray.trans {c c1 c2 : Cache σ} (h : SameStray c c1) (h' : SameStray c1 c2) :
    SameStray c c2 := fun a ha =>
  ⟨(h a (h' a ha).1).1, (h' a ha).2.trans (h a (h' a ha).1).2⟩

theorem SameStray.iff {c c' : Cache σ} (h : SameStray c c') (a : Id) :
    StrayLeaf c' a ↔ a ∉ c'.known ∧ StrayLeaf c a := by
  unfold StrayLeaf
  constructor
  · rintro ⟨h1, h2⟩; exact ⟨h2, (h a h2).2.1 h1, (h a h2).1⟩
  · rintro ⟨h1, h2, _⟩; exact ⟨(h a h1).2.2 h2, h1⟩

theorem SameStray.of_eq {c c' : Cache σ} (h1 : c'.known = c.known) (h2 : c'.leafs = c.leafs) :
    SameStray c c' := by intro a ha; rw [h1] at ha; rw [h2]; exact ⟨ha, Iff.rfl⟩

theorem Micro.sameStray {s s' : St σ} (h : Micro Y s s') : SameStray s.c s'.c := by
  cases h with
  | known p hl =>
    intro a ha
    simp only [mem_getElem, St.onCache, makeKnown_getElem] at ha
    simp only [St.onCache, makeKnown_leafs]
    by_cases hap : a = p.id
    · simp [hap] at ha
    · simp only [if_neg hap, ← mem_getElem] at ha
      exact ⟨ha, by simp [hap]⟩
  | track u q h1 h2 =>
    intro a ha
    have : a ≠ q.id := by rintro rfl; exact ha ((mem_getElem _ _).2 ⟨_, h2⟩)
    simp only [St.onCache, addEdge, Cache.emit] at ha ⊢
    refine ⟨ha, ?_⟩
    grind
  | alloc q h => rw [allocB_c h]; exact SameStray.refl _
  | _ => exact SameStray.of_eq rfl rfl

theorem Micros.sameStray {s s' : St σ} (h : Micros Y s s') : SameStray s.c s'.c := by
  induction h with
  | refl => exact SameStray.refl _
  | tail _ hm ih => exact ih.trans hm.sameStray

/-- Nothing but `p` itself changes for unknown ids. -/
def AddStray (p : Id) (c c' : Cache σ) : Prop :=
  c'.known = c.known ∧ ∀ a, a ∉ c.known → (a ∈ c'.leafs ↔ a = p ∨ a ∈ c.leafs)

theorem AddStray.iff {p : Id} {c c' : Cache σ} (h : AddStray p c c') (a : Id) :
    StrayLeaf c' a ↔ a ∉ c'.known ∧ (a = p ∨ StrayLeaf c a) := by
  unfold StrayLeaf
  rw [h.1]
  constructor
  · rintro ⟨h1, h2⟩
    rcases (h.2 a h2).1 h1 with h3 | h3
    · exact ⟨h2, Or.inl h3⟩
    · exact ⟨h2, Or.inr ⟨h3, h2⟩⟩
  · rintro ⟨h1, h2⟩
    refine ⟨(h.2 a h1).2 ?_, h1⟩
    rcases h2 with h2 | h2
    · exact Or.inl h2
    · exact Or.inr h2.1

/-- If `p` is known, nothing changes. -/
theorem AddStray.same {p : Id} {c c' c'' : Cache σ} (h : AddStray p c c') (h' : SameStray c' c'')
    (hp : p ∈ c''.known) : SameStray c c'' := by
  intro a ha
  obtain ⟨h1, h2⟩ := h' a ha
  rw [h.1] at h1
  refine ⟨h1, ?_⟩
  rw [h2, h.2 a h1]
  have : a ≠ p := by rintro rfl; exact ha hp
  simp [this]

theorem hit_unknown (hi : Inv Y s) {a x : Id} (h : Hit (Dep s.c) a x) (hx : x ∉ s.c.known) : x = a := by
  rcases Relation.ReflTransGen.cases_head h with h | ⟨y, hy, _⟩
  · exact h
  · exact absurd (hi.depU _ _ hy) hx

theorem Dropped.addStray (hi : Inv Y s) {p : Id} {c' : Cache σ}
    (h : Dropped (Hit (Dep s.c) p) s.c c') : AddStray p s.c c' := by
  refine ⟨h.known, fun a ha => ?_⟩
  rw [h.leafs]
  constructor
  · rintro (h1 | h1 | ⟨⟨u, _, hu⟩, _⟩)
    · exact Or.inr h1
    · exact Or.inl (hit_unknown hi h1 ha)
    · exact absurd (hi.depD _ _ hu) ha
  · rintro (h1 | h1)
    · exact Or.inr (Or.inl (h1 ▸ Relation.ReflTransGen.refl))
    · exact Or.inl h1

theorem invalidateDependents_addStray (hi : Inv Y s) {ord : HashOrder} {p : Id} {c' : Cache σ}
    (h : invalidateDependents Y ord p s.c = (c', .done)) : AddStray p s.c c' := by
  rcases hi.invalidateDependents ord p with ⟨c1, e1, _⟩ | ⟨c1, e1, hall, _⟩
  · rw [h] at e1; cases e1
  · by_cases hself : Dep s.c p p
    · obtain ⟨c1, e1, d1⟩ := invalidateDependents_self Y ord p s.c hi.sync hself hall
      rw [h] at e1
      cases e1
      have hP : (· = p) = Hit (Dep s.c) p := by
        funext x; exact propext (hit_self hall x).symm
      exact Dropped.addStray hi (c' := c1) (hP ▸ d1)
    · have hno : ∀ x, ¬ Dep s.c x p := by
        intro x hx
        have := hall x hx
        subst this
        exact hself hx
      rw [invalidateDependents_none Y ord p s.c hno] at h
      cases h
      refine ⟨rfl, fun a ha => ?_⟩
      simp only [Cache.emit]
      grind

theorem writeArt_stray {p : Promise σ} {f : σ.V → σ.V} {v : σ.V} {c c' : Cache σ}
    (h : writeArt Y p f v c = some c') : SameStray c c' := by
  unfold writeArt at h
  split at h
  · cases h; exact SameStray.of_eq rfl rfl
  · cases h

/-- The operations that put an id into the leaf set even if it is unknown. -/
def Op.strays (op : Op σ) (a : Id) : Prop :=
  (∃ p, op = .purge p ∧ p.id = a) ∨ (∃ p, op = .invalidate p ∧ p.id = a) ∨
    (∃ p f, op = .lookupMut p f ∧ p.id = a) ∨ ∃ p f, op = .dynStateMut p f ∧ p.id = a

theorem getMutWrite_stray (hi : Inv Y s) {bld : BuildFn σ} (hb : BuildOk Y bld)
    (hkn : ∀ (p : Promise σ) (s : St σ), Inv Y s → s.live p = true → s.c.artifacts[p.id]? = none →
      (bld p s).2 ≠ .overflow → (bld p s).1.c.known[p.id]? = some p.b)
    (ord : HashOrder) {p : Promise σ} (hl : s.live p = true) (f : σ.V → σ.V)
    (hg : (getMutWrite Y ord bld p f s).2.goesOn) : SameStray s.c (getMutWrite Y ord bld p f s).1.c := by
  unfold getMutWrite at hg ⊢
  rcases getMut_spec_of hi hb ord hl with ⟨c', he, _⟩ | ⟨c1, h1, h2⟩
  · rw [he] at hg; exact absurd rfl hg
  · have s1 := invalidateDependents_addStray hi h1
    rcases hi.invalidateDependents ord p.id with ⟨c', he', _⟩ | ⟨c', he', _, hinv, _⟩
    · rw [h1] at he'; cases he'
    rw [h1] at he'
    cases he'
    rcases h2 with ⟨c2, v, _, h3, h4, hinv2, he⟩ | ⟨h3, he⟩
    · rw [he]
      have s2 := invalidateDependents_addStray hinv h3
      have hk : p.id ∈ c2.known :=
        hinv2.dynKnown _ (hinv2.artDyn p.id ((mem_getElem _ _).2 ⟨v, h4⟩))
      have hk1 : p.id ∈ c1.known := by rw [s2.1] at hk; exact hk
      have s3 : SameStray s.c c2 := s1.same (s2.same (SameStray.refl _) hk) hk
      simp only
      cases hw : writeArt Y p f v c2 with
      | none => exact s3
      | some c3 => exact s3.trans (writeArt_stray hw)
    · rw [he] at hg ⊢
      have hk := hkn p _ hinv hl h3
      have hm := (hb.ran p { s with c := c1 } hinv hl h3).micros.sameStray
      generalize bld p { s with c := c1 } = x at hk hm hg ⊢
      obtain ⟨s2, r⟩ := x
      have s3 : r ≠ .overflow → SameStray s.c s2.c := fun h => s1.same hm ((mem_getElem _ _).2 ⟨_, hk h⟩)
      rcases r with (e | v) | k | _ | _
      · exact s3 (by simp)
      · have s3 := s3 (by simp)
        simp only
        cases hw : writeArt Y p f v s2.c with
        | none => exact s3
        | some c3 => exact s3.trans (writeArt_stray hw)
      · exact s3 (by simp)
      · exact hg.elim
      · exact hg.elim

/-- How the stray leafs change. -/
theorem exec_stray (hi : Inv Y s) (n : Nat) (ord : HashOrder) (op : Op σ)
    (hl : ∀ p, op.promise? = some p → s.live p = true)
    (hg : (exec Y n ord s op).2.goesOn) (a : Id) :
    StrayLeaf (exec Y n ord s op).1.c a ↔
      a ∉ (exec Y n ord s op).1.c.known ∧ op ≠ .clearAll ∧ (op.strays a ∨ StrayLeaf s.c a) := by
  have same : ∀ {c' : Cache σ}, SameStray s.c c' → op ≠ .clearAll → (∀ a, ¬ op.strays a) →
      (StrayLeaf c' a ↔ a ∉ c'.known ∧ op ≠ .clearAll ∧ (op.strays a ∨ StrayLeaf s.c a)) := by
    intro c' h h1 h2
    rw [h.iff]
    simp [h1, h2]
  cases op with
  | get how p =>
    exact same ((getA_ok Y n).1.ran how p s hi).micros.sameStray (by simp) (by simp [Op.strays])
  | getMut p f =>
    exact same (getMutWrite_stray hi (getA_ok Y n).2 (fun _ _ h => buildN_known h) ord (hl p rfl) f hg) (by simp)
      (by simp [Op.strays])
  | lookupMut p f =>
    have hl := hl p rfl
    have hst : (Op.lookupMut p f).strays a ↔ a = p.id := by
      simp only [Op.strays, reduceCtorEq, false_and, exists_false, false_or, or_false, Op.lookupMut.injEq]
      constructor
      · rintro ⟨q, g, ⟨rfl, rfl⟩, rfl⟩; rfl
      · rintro rfl; exact ⟨p, f, ⟨rfl, rfl⟩, rfl⟩
    rw [hst]
    simp only [exec] at hg ⊢
    rcases lookupMut_spec hi ord hl with ⟨c', he, _⟩ | ⟨c1, he, h1⟩
    · rw [he] at hg; exact absurd rfl hg
    · have s1 := invalidateDependents_addStray hi h1
      rw [he] at hg ⊢
      cases ha : c1.artifacts[p.id]? with
      | none => simp [s1.iff]
      | some v =>
        simp only
        cases hw : writeArt Y p f v c1 with
        | none => simp [s1.iff]
        | some c2 =>
          have := writeArt_stray hw
          simp only [this.iff, s1.iff]
          have h3 := (this a)
          simp
          intro h4 h5
          exact (h3 h4).1
  | invalidate p =>
    have hst : (Op.invalidate p).strays a ↔ a = p.id := by
      simp only [Op.strays, reduceCtorEq, false_and, exists_false, or_false, false_or,
        Op.invalidate.injEq]
      constructor
      · rintro ⟨q, rfl, rfl⟩; rfl
      · rintro rfl; exact ⟨p, rfl, rfl⟩
    obtain ⟨c', he, hd⟩ := invalidate_spec hi ord p
    have s1 : AddStray p.id s.c (c'.emit (.invalidate p)) := hd.addStray hi
    rw [hst]
    simp only [exec, he, s1.iff]
    simp
  | purge p =>
    have hst : (Op.purge p).strays a ↔ a = p.id := by
      simp only [Op.strays, reduceCtorEq, false_and, exists_false, or_false, Op.purge.injEq]
      constructor
      · rintro ⟨q, rfl, rfl⟩; rfl
      · rintro rfl; exact ⟨p, rfl, rfl⟩
    obtain ⟨c', cF, he, hd, rfl⟩ := purge_spec hi ord p
    have s1 : AddStray p.id s.c c' := hd.addStray hi
    rw [hst]
    simp only [exec, he, StrayLeaf]
    by_cases hap : a = p.id
    · subst hap
      have : p.id ∈ c'.leafs := (hd.leafs _).2 (Or.inr (Or.inl Relation.ReflTransGen.refl))
      simp [this]
    · have h1 : a ∈ s.c.known.erase p.id ↔ a ∈ s.c.known := by grind
      have h2 := s1.2 a
      rw [h1]
      grind
  | dynState p =>
    have hl := hl p rfl
    exact same (ensureDyn_ran hi hl).1.micros.sameStray (by simp) (by simp [Op.strays])
  | dynStateMut p f =>
    have hl := hl p rfl
    obtain ⟨c', he, hd⟩ := invalidate_spec hi ord p
    have s1 : AddStray p.id s.c (c'.emit (.invalidate p)) := hd.addStray hi
    have hinv := hi.invalidated hd
    have key : SameStray s.c (exec Y n ord s (.dynStateMut p f)).1.c ∧
        p.id ∈ (exec Y n ord s (.dynStateMut p f)).1.c.known := by
      simp only [exec, dynStateMut, he]
      obtain ⟨hr, hk, _⟩ := ensureDyn_ran hinv (p := p) hl (Y := Y)
      generalize ensureDyn Y p { s with c := c'.emit (.invalidate p) } = x at hr hk ⊢
      obtain ⟨s2, r⟩ := x
      have hk := (mem_getElem _ _).2 ⟨_, hk⟩
      have s3 : SameStray s.c s2.c := s1.same hr.micros.sameStray hk
      cases r with
      | val d =>
        simp only
        split
        · exact ⟨s3.trans (SameStray.of_eq rfl rfl), hk⟩
        · exact ⟨s3, hk⟩
      | _ => exact ⟨s3, hk⟩
    rw [key.1.iff]
    simp only [Op.strays, reduceCtorEq, false_and, exists_false, false_or, Op.dynStateMut.injEq, ne_eq,
      not_false_eq_true, true_and]
    constructor
    · rintro ⟨h1, h2⟩; exact ⟨h1, Or.inr h2⟩
    · rintro ⟨h1, ⟨q, g, ⟨rfl, rfl⟩, rfl⟩ | h2⟩
      · exact absurd key.2 h1
      · exact ⟨h1, h2⟩
  | clearArtifacts =>
    refine same ?_ (by simp) (by simp [Op.strays])
    intro a ha
    simp only [exec, St.onCache, clearArtifacts, Cache.emit, mem_foldl_insert] at ha ⊢
    refine ⟨ha, ?_⟩
    simp [ha]
  | clearAll => simp [exec, StrayLeaf, St.onCache, clearAll, Cache.emit]
  | gc =>
    simp only [exec] at hg ⊢
    have hst : ¬ (Op.gc : Op σ).strays a := by simp [Op.strays]
    rcases gc_spec hi ord with ⟨e, _⟩ | ⟨h1, c', e, h2, _⟩
    · rw [e]
      simp [StrayLeaf, hst]
    · rw [e]
      have n1 : ¬ StrayLeaf s.c a := fun h => h.2 (h1 a h.1)
      have n2 : ¬ StrayLeaf c' a := by
        rintro ⟨h3, h4⟩
        obtain ⟨h5, h6⟩ := (h2.leafs a).1 h3
        refine h4 ?_
        rw [mem_getElem, h2.known_keep a h5, ← mem_getElem]
        rcases h6 with h6 | ⟨⟨u, _, hu⟩, _⟩
        · exact h1 a h6
        · exact hi.depD _ _ hu
      simp [n1, n2, hst]
  | alloc p =>
    refine same ?_ (by simp) (by simp [Op.strays])
    simp only [exec]
    cases ha : allocB p s with
    | none => exact SameStray.refl _
    | some s1 => simp only [allocB_c ha]; exact SameStray.refl _
  | _ => exact same (SameStray.refl _) (by simp) (by simp [Op.strays])

theorem step_stray (hi : Inv Y s) (n : Nat) (ord : HashOrder) (op : Op σ)
    (hg : (step Y n ord s op).2.goesOn) (a : Id) :
    StrayLeaf (step Y n ord s op).1.c a ↔
      a ∉ (step Y n ord s op).1.c.known ∧ op ≠ .clearAll ∧ (op.strays a ∨ StrayLeaf s.c a) := by
  unfold step at hg ⊢
  cases hp : op.promise? with
  | none => 
    simp only [hp] at hg
    exact exec_stray hi n ord op (by simp [hp]) hg a
  | some p =>
    simp only [hp] at hg
    cases hl : s.live p with
    | false => simp [hl, Res.goesOn] at hg
    | true =>
      simp only [hl, if_true] at hg ⊢
      exact exec_stray hi n ord op (by intro q hq; rw [hp] at hq; cases hq; exact hl) hg a

/-- The same with hooks. -/
theorem execH_stray (hi : Inv Y s) (D : Hooks σ) (n : Nat) (ord : HashOrder) (op : Op σ)
    (hl : ∀ p, op.promise? = some p → s.live p = true)
    (hg : (execH Y D n ord s op).2.goesOn) (a : Id) :
    StrayLeaf (execH Y D n ord s op).1.c a ↔
      a ∉ (execH Y D n ord s op).1.c.known ∧ op ≠ .clearAll ∧ (op.strays a ∨ StrayLeaf s.c a) := by
  have same : ∀ {c' : Cache σ}, SameStray s.c c' → op ≠ .clearAll → (∀ a, ¬ op.strays a) →
      (StrayLeaf c' a ↔ a ∉ c'.known ∧ op ≠ .clearAll ∧ (op.strays a ∨ StrayLeaf s.c a)) := by
    intro c' h h1 h2
    rw [h.iff]
    simp [h1, h2]
  cases hdeep : op.deep with
  | false =>
    obtain ⟨w, h1, h2⟩ := execH_shallow (Y := Y) (s := s) D n ord op hdeep
    have hg' : (exec Y n ord s op).2.goesOn := by
      rcases h2 with h2 | ⟨_, a, h2⟩
      · rw [← h2]; exact hg
      · rw [h2]; trivial
    rw [h1]
    exact exec_stray hi n ord op hl hg' a
  | true =>
    cases op with
    | get how p =>
      exact same ((getAH_ok Y D n).1 how p s hi).micros.sameStray (by simp) (by simp [Op.strays])
    | getMut p f =>
      exact same (getMutWrite_stray hi (getAH_ok Y D n).2 (fun _ _ h => buildNH_known D h) ord (hl p rfl) f hg)
        (by simp) (by simp [Op.strays])
    | dynStateMut p f =>
      have hl := hl p rfl
      obtain ⟨c', he, hd⟩ := invalidate_spec hi ord p
      have s1 : AddStray p.id s.c (c'.emit (.invalidate p)) := hd.addStray hi
      have hinv := hi.invalidated hd
      have hst : (Op.dynStateMut p f).strays a ↔ a = p.id := by
        simp only [Op.strays, reduceCtorEq, false_and, exists_false, false_or, Op.dynStateMut.injEq]
        constructor
        · rintro ⟨q, g, ⟨rfl, rfl⟩, rfl⟩; rfl
        · rintro rfl; exact ⟨p, f, ⟨rfl, rfl⟩, rfl⟩
      rw [hst]
      simp only [execH, dynStateMutH, he, callHook]
      split
      · simp [s1.iff]
      · next w _ =>
        have hinv := hinv.micro (.world w)
        obtain ⟨hr, hk, _⟩ := ensureDyn_ran hinv (p := p) hl (Y := Y)
        simp only at hr hk ⊢
        generalize ensureDyn Y p { s with c := c'.emit (.invalidate p), w := w } = x at hr hk ⊢
        obtain ⟨s2, r⟩ := x
        have hk := (mem_getElem _ _).2 ⟨_, hk⟩
        have s3 : SameStray s.c s2.c := s1.same hr.micros.sameStray hk
        have fin : ∀ c', SameStray s.c c' → p.id ∈ c'.known → (StrayLeaf c' a ↔ a ∉ c'.known ∧
            (Op.dynStateMut p f : Op σ) ≠ .clearAll ∧ (a = p.id ∨ StrayLeaf s.c a)) := by
          intro c' h1 h2
          rw [h1.iff]
          simp only [ne_eq, reduceCtorEq, not_false_eq_true, true_and]
          constructor
          · rintro ⟨h3, h4⟩; exact ⟨h3, Or.inr h4⟩
          · rintro ⟨h3, rfl | h4⟩
            · exact absurd h2 h3
            · exact ⟨h3, h4⟩
        cases r with
        | val d =>
          simp only
          split
          · exact fin _ (s3.trans (SameStray.of_eq rfl rfl)) hk
          · exact fin _ s3 hk
        | _ => exact fin _ s3 hk
    | _ => cases hdeep

theorem stepH_stray (hi : Inv Y s) (D : Hooks σ) (n : Nat) (ord : HashOrder) (op : Op σ)
    (hg : (stepH Y D n ord s op).2.goesOn) (a : Id) :
    StrayLeaf (stepH Y D n ord s op).1.c a ↔
      a ∉ (stepH Y D n ord s op).1.c.known ∧ op ≠ .clearAll ∧ (op.strays a ∨ StrayLeaf s.c a) := by
  rcases stepH_cases (Y := Y) (s := s) D n ord op with ⟨hl, e⟩ | e
  · rw [e] at hg ⊢; exact execH_stray hi D n ord op hl hg a
  · rw [e] at hg; exact hg.elim

end Daab
