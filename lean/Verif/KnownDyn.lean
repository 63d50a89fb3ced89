import Verif.Shape

/-! # Known builders have a dynamic state, or its initialisation panicked -/

open Std

namespace Daab

variable {σ : Sig}

/-- `a` has a dynamic state or its `init_dyn_state` panicked once. -/
def DynOr (s : St σ) (a : Id) : Prop :=
  a ∈ s.c.dynStates ∨ ∃ p : Promise σ, p.id = a ∧ Event.initDyn p none ∈ s.c.log

/-- All known builders but those in `ex`. -/
def KD (ex : Id → Prop) (s : St σ) : Prop := ∀ a, a ∈ s.c.known → ¬ ex a → DynOr s a

/-- The computation ended by returning or panicking. -/
def Res.ended {α : Type} (r : Res α) : Prop := r ≠ .stuck ∧ r ≠ .overflow

theorem DynOr.mono {s s' : St σ} {a : Id} (h : DynOr s a)
    (h1 : a ∈ s.c.dynStates → a ∈ s'.c.dynStates) (h2 : s.c.log <:+ s'.c.log) : DynOr s' a := by
  rcases h with h | ⟨p, hp, he⟩
  · exact Or.inl (h1 h)
  · exact Or.inr ⟨p, hp, h2.mem he⟩

theorem KD.makeKnown {s : St σ} (h : KD noEx s) (p : Promise σ) :
    KD (· = p.id) (s.onCache (makeKnown p)) := by
  intro a ha hne
  have : a ∈ s.c.known := by
    rw [mem_getElem] at ha ⊢
    simp only [St.onCache, makeKnown_getElem, if_neg hne] at ha
    exact ha
  exact (h a this (by simp)).mono (by simp [St.onCache]) (by simp [St.onCache])

theorem ensureDyn_KD {Y : Sys σ} {p : Promise σ} {s : St σ} (h : KD (· = p.id) s)
    (hr : (ensureDyn Y p s).2.ended) : KD noEx (ensureDyn Y p s).1 := by
  have h1 : KD (· = p.id) (s.onCache (makeKnown p)) := by
    intro a ha hne
    have : a ∈ s.c.known := by
      rw [mem_getElem] at ha ⊢
      simp only [St.onCache, makeKnown_getElem, if_neg hne] at ha
      exact ha
    exact (h a this hne).mono (by simp [St.onCache]) (by simp [St.onCache])
  unfold ensureDyn at hr ⊢
  generalize s.onCache (Daab.makeKnown p) = s1 at h1 hr ⊢
  simp only at hr ⊢
  cases hd : s1.c.dynStates[p.id]? with
  | some d =>
    simp only
    intro a ha _
    by_cases hp : a = p.id
    · subst hp; exact Or.inl ((mem_getElem _ _).2 ⟨d, hd⟩)
    · exact h1 a ha hp
  | none =>
    simp only [hd] at hr ⊢
    rcases hin : Y.init p.b s1.w with ⟨w, _ | d⟩
    · simp only
      intro a ha _
      by_cases hp : a = p.id
      · exact Or.inr ⟨p, hp.symm, by simp [Cache.emit]⟩
      · exact (h1 a ha hp).mono id (List.suffix_cons _ _)
    · simp only [hin] at hr ⊢
      split at hr
      · next ht =>
        rw [if_pos ht]
        intro a ha _
        by_cases hp : a = p.id
        · subst hp; exact Or.inl (by simp [Cache.emit])
        · exact (h1 a ha hp).mono (by simp only [Cache.emit]; grind) (List.suffix_cons _ _)
      · exact absurd rfl hr.1

/-- A getter establishes the property for what it gets. -/
def GetKD (Y : Sys σ) (g : Getter σ) : Prop := ∀ how p s, Inv Y s → KD (· = p.id) s →
  (g how p s).2.ended → KD noEx (g how p s).1

def BuildKD (Y : Sys σ) (b : BuildFn σ) : Prop := ∀ p s, Inv Y s → KD (· = p.id) s →
  s.live p = true → s.c.artifacts[p.id]? = none → (b p s).2.ended → KD noEx (b p s).1

theorem KD.of_same {s s' : St σ} (h : KD noEx s) (hk : s'.c.known = s.c.known)
    (h1 : ∀ a, a ∈ s.c.dynStates → a ∈ s'.c.dynStates) (h2 : s.c.log <:+ s'.c.log) : KD noEx s' := by
  intro a ha hn
  exact (h a (hk ▸ ha) hn).mono (h1 a) h2

theorem runProg_KD {Y : Sys σ} {g : Getter σ} (hg : GetOk Y g) (hk : GetKD Y g) {p : Promise σ}
    (prog : Prog σ) {s : St σ} (hi : Inv Y s) (hp : s.c.known[p.id]? = some p.b)
    (hd : p.id ∈ s.c.dynStates) (hpo : PendOr s p.id) (h : KD noEx s) (hr : (runProg Y g p prog s).2.ended) :
    KD noEx (runProg Y g p prog s).1 := by
  induction prog generalizing s with
  | ret r => cases r <;> exact h
  | panic => exact h
  | resolve how q k ih =>
    simp only [runProg] at hr ⊢
    split at hr
    · next hl =>
      rw [if_pos hl]
      rw [track_eq hp] at hr ⊢
      simp only at hr ⊢
      have m1 : Micro Y s (s.onCache (Daab.makeKnown q)) := .known q hl
      have i1 := hi.micro m1
      have k1 : (s.onCache (Daab.makeKnown q)).c.known[p.id]? = some p.b := m1.known_mono _ _ hp
      have q1 : (s.onCache (Daab.makeKnown q)).c.known[q.id]? = some q.b := hi.live_known hl
      have m2 : Micro Y (s.onCache (Daab.makeKnown q))
          ((s.onCache (Daab.makeKnown q)).onCache (addEdge p q)) := .track p q k1 q1 (m1.pendOr_mono _ hpo)
      have i2 := i1.micro m2
      have hs2 : ({ s with c := addEdge p q (Daab.makeKnown q s.c) } : St σ) =
        (s.onCache (Daab.makeKnown q)).onCache (addEdge p q) := rfl
      rw [hs2] at hr ⊢
      have hkd : KD (· = q.id) ((s.onCache (Daab.makeKnown q)).onCache (addEdge p q)) := by
        intro a ha hne
        exact (h.makeKnown q a ha hne).mono id (List.suffix_cons _ _)
      have h1 := hk how q _ i2 hkd
      have hms := (hg.ran how q _ i2).micros
      generalize g how q ((s.onCache (Daab.makeKnown q)).onCache (addEdge p q)) = x at hr h1 hms
      obtain ⟨s', r⟩ := x
      have hms' : Micros Y s s' := (Relation.ReflTransGen.refl.tail m1 |>.tail m2).trans hms
      cases r with
      | val r =>
        exact ih r (hi.micros hms') (hms'.known_mono _ _ hp) (hms'.dyn_mono _ hd)
          (hms'.pendOr_mono _ hpo)
          (h1 ⟨by simp, by simp⟩) hr
      | panic k => exact h1 ⟨by simp, by simp⟩
      | stuck => exact absurd rfl hr.1
      | overflow => exact absurd rfl hr.2
    · exact absurd rfl hr.1
  | myState f k ih =>
    simp only [runProg] at hr ⊢
    have hran := myState_ran hi hp hd f
    have hsame : (myState Y p f s).1.c.known = s.c.known := by
      unfold myState
      cases s.c.dynStates[p.id]? with
      | none => rfl
      | some d =>
        simp only
        split
        · rfl
        · split
          · split <;> rfl
          · rfl
    generalize myState Y p f s = x at hr hran hsame
    obtain ⟨s', r⟩ := x
    have hms : Micros Y s s' := hran.micros
    have h' : KD noEx s' := h.of_same hsame (fun a => hms.dyn_mono a) hms.log_mono
    cases r with
    | val r =>
      exact ih r (hi.micros hms) (hms.known_mono _ _ hp) (hms.dyn_mono _ hd)
        (hms.pendOr_mono _ hpo) h' hr
    | _ => exact h'
  | world f k ih =>
    exact ih s.w (hi.micro (.world (f s.w))) hp hd hpo h hr
  | alloc q k ih =>
    simp only [runProg] at hr ⊢
    cases ha : allocB q s with
    | none => exact h
    | some s1 =>
      rw [ha] at hr
      have hc := allocB_c ha
      exact ih (hi.micro (.alloc q ha)) (hc ▸ hp) (hc ▸ hd)
        ((Micro.alloc (Y := Y) q ha).pendOr_mono _ hpo)
        (h.of_same (by rw [hc]) (by rw [hc]; exact fun _ h => h) (by rw [hc]; exact List.suffix_refl _)) hr
  | free a k ih => exact ih (hi.micro (.free a)) hp hd hpo h hr

theorem build_KD {Y : Sys σ} {g : Getter σ} (hg : GetOk Y g) (hk : GetKD Y g) :
    BuildKD Y (build Y g) := by
  intro p s hi h hl ha hr
  have hca : containsArtifact p.id s.c = false := by simp only [containsArtifact]; grind
  unfold build at hr ⊢
  simp only [hca, Bool.and_false, Bool.false_eq_true, if_false] at hr ⊢
  have i1 := hi.micro (.known p hl)
  have hl1 : (s.onCache (Daab.makeKnown p)).live p = true := hl
  have h1 : KD (· = p.id) (s.onCache (Daab.makeKnown p)) := by
    intro a ha hne
    have : a ∈ s.c.known := by
      rw [mem_getElem] at ha ⊢
      simp only [St.onCache, makeKnown_getElem, if_neg hne] at ha
      exact ha
    exact (h a this hne).mono (by simp [St.onCache]) (by simp [St.onCache])
  generalize s.onCache (Daab.makeKnown p) = s1 at hr h1 i1 hl1 ⊢
  obtain ⟨hran, hkn, har, hdv⟩ := ensureDyn_ran i1 hl1
  have h2 := ensureDyn_KD (Y := Y) h1
  generalize ensureDyn Y p s1 = x at hr hran hkn hdv h2 ⊢
  obtain ⟨s2, r⟩ := x
  have i2 := hran.inv i1
  cases r with
  | val d =>
    have h2 := h2 ⟨by simp, by simp⟩
    have hd := (mem_getElem _ _).2 ⟨d, hdv d rfl⟩
    simp only at hr h2 hd i2 hkn ⊢
    have i3 : Inv Y (s2.onCache (·.emit (.call p))) := by
      constructor
      · exact i2.sync
      · exact i2.depU
      · exact i2.depD
      · exact i2.artDyn
      · exact i2.dynKnown
      · exact i2.leafNo
      · exact i2.knownLeaf
      · exact i2.heapKnown
      · exact i2.bornHeap
      · exact i2.bornKnown
      · exact i2.artTy
      · exact i2.dynTy
      · exact i2.absArt
      · exact i2.absArtB
      · exact i2.absDyn
      · exact i2.absDynB
      · exact i2.absDep
    have h3 : KD noEx (s2.onCache (·.emit (.call p))) :=
      h2.of_same rfl (fun _ h => h) (List.suffix_cons _ _)
    have h4 := runProg_KD hg hk (p := p) (Y.code p.b) i3 hkn hd (.called s2 p) h3
    generalize runProg Y g p (Y.code p.b) (s2.onCache (·.emit (.call p))) = x at hr h4 ⊢
    obtain ⟨s4, r⟩ := x
    rcases r with (_ | v) | _ | _ | _
    · exact h4 ⟨by simp, by simp⟩
    · exact (h4 ⟨by simp, by simp⟩).of_same rfl (fun _ h => h) (List.suffix_cons _ _)
    · exact h4 ⟨by simp, by simp⟩
    · exact absurd rfl hr.1
    · exact absurd rfl hr.2
  | panic k => exact h2 ⟨by simp, by simp⟩
  | stuck => exact absurd rfl hr.1
  | overflow => exact absurd rfl hr.2

theorem getBy_KD {Y : Sys σ} {bld : BuildFn σ} (hb : BuildOk Y bld) (hk : BuildKD Y bld) :
    GetKD Y (getBy Y bld) := by
  intro how p s hi h hr
  cases hl : s.live p with
  | false => simp [getBy, hl, Res.ended] at hr
  | true =>
    cases ha : s.c.artifacts[p.id]? with
    | some v =>
      rw [getBy_hit hi bld how hl ha]
      intro a hak _
      by_cases hp : a = p.id
      · subst hp; exact Or.inl (hi.artDyn _ ((mem_getElem _ _).2 ⟨v, ha⟩))
      · exact h a hak hp
    | none =>
      rw [getBy_miss hi hb how hl ha] at hr ⊢
      refine hk p s hi h hl ha ?_
      simp only at hr
      generalize (bld p s).2 = r at hr
      rcases r with (_ | v) | _ | _ | _
      · exact hr
      · exact ⟨by simp, by simp⟩
      · exact hr
      · exact hr
      · exact hr

theorem getA_KD (Y : Sys σ) (n : Nat) : GetKD Y (getA Y n) ∧ BuildKD Y (buildN Y n) := by
  induction n with
  | zero =>
    have h : BuildKD Y (buildN Y 0) := fun p s _ _ _ _ hr => absurd rfl hr.2
    exact ⟨getBy_KD (overflow_ok Y) h, h⟩
  | succ n ih =>
    have h : BuildKD Y (buildN Y (n + 1)) := build_KD (getA_ok Y n).1 ih.1
    have hok : BuildOk Y (buildN Y (n + 1)) := (getA_ok Y (n + 1)).2
    exact ⟨getBy_KD hok h, h⟩

theorem KD.weaken {s : St σ} (h : KD noEx s) (ex : Id → Prop) : KD ex s :=
  fun a ha _ => h a ha (by simp)

/-- Dropping only known entries and adding events. -/
theorem KD.shrink {s s' : St σ} (h : KD noEx s) (hk : ∀ a, a ∈ s'.c.known → a ∈ s.c.known)
    (h1 : ∀ a, a ∈ s'.c.known → a ∈ s.c.dynStates → a ∈ s'.c.dynStates)
    (h2 : s.c.log <:+ s'.c.log) : KD noEx s' :=
  fun a ha hn => (h a (hk a ha) hn).mono (h1 a ha) h2

theorem getMutWrite_KD {Y : Sys σ} {s : St σ} (hi : Inv Y s) {bld : BuildFn σ} (hb : BuildOk Y bld) (hk : BuildKD Y bld)
    (ord : HashOrder) {p : Promise σ} (hl : s.live p = true) {f : σ.V → σ.V}
    (hg : (getMutWrite Y ord bld p f s).2.goesOn) (h : KD noEx s) : KD noEx (getMutWrite Y ord bld p f s).1 := by
  have hno : (getMutWrite Y ord bld p f s).2 ≠ .panic .noCounterpart := by
    intro he; rw [he] at hg; exact hg rfl
  unfold getMutWrite at hg hno ⊢
  rcases getMut_spec_of hi hb ord hl with ⟨c', he, _⟩ | ⟨c1, h1, hrest⟩
  · rw [he] at hno; exact absurd rfl hno
  · rcases hi.invalidateDependents ord p.id with ⟨c', he', _⟩ |
      ⟨c', he', _, hinv, _, hkn, hdy, _, _, hlg, _⟩
    · rw [h1] at he'; cases he'
    · rw [h1] at he'
      cases he'
      have k1 : KD noEx { s with c := c1 } :=
        h.of_same hkn (by simp [hdy]) (by simp only [hlg]; exact List.suffix_cons _ _)
      rcases hrest with ⟨c2, v, _, h12, h2, _, he⟩ | ⟨h2, he⟩
      · rcases hinv.invalidateDependents ord p.id with ⟨c', he', _⟩ |
          ⟨c', he', _, _, _, hkn2, hdy2, _, _, hlg2, _⟩
        · simp only at he'; rw [h12] at he'; cases he'
        · simp only at he'
          rw [h12] at he'
          cases he'
          have k2 : KD noEx { s with c := c2 } :=
            k1.of_same hkn2 (by simp [hdy2]) (by simp only [hlg2]; exact List.suffix_cons _ _)
          rw [he]
          simp only [writeArt]
          by_cases ht : Y.artTy (f v) = Y.vty p.b
          · simp only [ht, if_true]
            exact k2.of_same rfl (fun _ h => h) (List.suffix_cons _ _)
          · simp only [ht, if_false]
            exact k2
      · rw [he] at hg ⊢
        have k2 := hk p { s with c := c1 } hinv (k1.weaken _) hl h2
        generalize bld p { s with c := c1 } = x at hg k2 ⊢
        obtain ⟨s', r⟩ := x
        rcases r with (_ | v) | _ | _ | _
        · exact k2 ⟨by simp, by simp⟩
        · have k2 := k2 ⟨by simp, by simp⟩
          simp only [writeArt] at k2 ⊢
          by_cases ht : Y.artTy (f v) = Y.vty p.b
          · simp only [ht, if_true]
            exact k2.of_same rfl (fun _ h => h) (List.suffix_cons _ _)
          · simp only [ht, if_false]
            exact k2
        · exact k2 ⟨by simp, by simp⟩
        · exact absurd hg id
        · exact absurd hg id

theorem exec_KD {Y : Sys σ} {s : St σ} (hi : Inv Y s) (n : Nat) (ord : HashOrder) (op : Op σ)
    (hl : ∀ p, op.promise? = some p → s.live p = true)
    (hg : (exec Y n ord s op).2.goesOn) (h : KD noEx s) : KD noEx (exec Y n ord s op).1 := by
  have hno : (exec Y n ord s op).2 ≠ .panic .noCounterpart := by
    intro he; rw [he] at hg; exact hg rfl
  have hlog := (exec_trans hi n ord op hl hno).log_mono
  cases op with
  | get how p =>
    simp only [exec] at hg ⊢
    refine (getA_KD Y n).1 how p s hi (h.weaken _) ?_
    generalize (getA Y n how p s).2 = r at hg
    cases r with
    | val | panic => exact ⟨by simp, by simp⟩
    | _ => exact absurd hg id
  | getMut p f => exact getMutWrite_KD hi (getA_ok Y n).2 (getA_KD Y n).2 ord (hl p rfl) hg h
  | lookup how p => exact h
  | lookupMut p f =>
    have hl := hl p rfl
    simp only [exec] at hno ⊢
    rcases lookupMut_spec hi ord hl with ⟨c', he, _⟩ | ⟨c1, he, h1⟩
    · rw [he] at hno; exact absurd rfl hno
    · rcases hi.invalidateDependents ord p.id with ⟨c', he', _⟩ |
        ⟨c', he', _, hinv, _, hkn, hdy, _, _, hlg, _⟩
      · rw [h1] at he'; cases he'
      · rw [h1] at he'
        cases he'
        have k1 : KD noEx { s with c := c1 } :=
          h.of_same hkn (by simp [hdy]) (by simp only [hlg]; exact List.suffix_cons _ _)
        rw [he]
        cases ha : c1.artifacts[p.id]? with
        | none => exact k1
        | some v =>
          simp only [writeArt]
          by_cases ht : Y.artTy (f v) = Y.vty p.b
          · simp only [ht, if_true]
            exact k1.of_same rfl (fun _ h => h) (List.suffix_cons _ _)
          · simp only [ht, if_false]
            exact k1
  | dynState p =>
    simp only [exec] at hg ⊢
    refine ensureDyn_KD (h.weaken _) ?_
    generalize (ensureDyn Y p s).2 = r at hg
    cases r with
    | val | panic => exact ⟨by simp, by simp⟩
    | _ => exact absurd hg id
  | getDynState p => exact h
  | dynStateMut p f =>
    simp only [exec] at hg ⊢
    obtain ⟨c', he, hd⟩ := invalidate_spec hi ord p
    have k1 : KD noEx { s with c := c'.emit (.invalidate p) } :=
      h.of_same hd.known (by simp [Cache.emit, hd.dynStates])
        (by simp only [Cache.emit, hd.log]; exact List.suffix_cons _ _)
    unfold dynStateMut at hg ⊢
    rw [he] at hg ⊢
    simp only at hg ⊢
    have k2 := ensureDyn_KD (Y := Y) (k1.weaken (· = p.id))
    generalize ensureDyn Y p { s with c := c'.emit (.invalidate p) } = x at hg k2 ⊢
    obtain ⟨s1, r⟩ := x
    cases r with
    | val d =>
      have k2 := k2 ⟨by simp, by simp⟩
      simp only at k2 ⊢
      split
      · refine k2.of_same rfl ?_ (List.suffix_cons _ _)
        simp only [St.onCache, Cache.emit]
        grind
      · exact k2
    | panic k => exact k2 ⟨by simp, by simp⟩
    | stuck => exact absurd hg id
    | overflow => exact absurd hg id
  | isKnown p => exact h
  | numKnown => exact h
  | invalidate p =>
    obtain ⟨c', he, hd⟩ := invalidate_spec hi ord p
    simp only [exec, he]
    exact h.of_same hd.known (by simp [Cache.emit, hd.dynStates])
        (by simp only [Cache.emit, hd.log]; exact List.suffix_cons _ _)
  | purge p =>
    obtain ⟨c', cF, he, hd, hF⟩ := purge_spec hi ord p
    subst hF
    simp only [exec, he] at hlog ⊢
    refine h.shrink ?_ ?_ hlog
    · simp only; grind
    · simp only; grind
  | clearArtifacts => exact h.of_same rfl (fun _ h => h) (List.suffix_cons _ _)
  | clearAll =>
    intro a ha
    simp [exec, St.onCache, Daab.clearAll, Cache.emit] at ha
  | gc =>
    simp only [exec] at hlog ⊢
    rcases gc_spec hi ord with ⟨he, _⟩ | ⟨_, c', he, h1, l, h6, h7⟩
    · rw [he]; exact h
    · rw [he] at hlog ⊢
      have hn := h1.known_none
      have hk := h1.known_keep
      have hdk := h1.dyn_keep
      have hng : ∀ a, a ∈ c'.known → ¬ Garbage s a := by
        intro a ha hga
        obtain ⟨b, hb⟩ := (mem_getElem _ _).1 ha
        rw [hn a hga] at hb
        cases hb
      refine h.shrink ?_ ?_ hlog
      · intro a ha
        simp only [mem_getElem] at ha ⊢
        rw [← hk a (hng a ((mem_getElem _ _).2 ha))]
        exact ha
      · intro a ha hd
        simp only [mem_getElem] at hd ⊢
        rw [hdk a (hng a ha)]
        exact hd
  | alloc p =>
    simp only [exec]
    cases ha : allocB p s with
    | none => exact h
    | some s1 =>
      have hc := allocB_c ha
      exact h.of_same (by rw [hc]) (by rw [hc]; exact fun _ h => h) (by rw [hc]; exact List.suffix_refl _)
  | free a => exact h
  | world f => exact h

end Daab
