import Verif.SimStep
import Verif.HookRuns
import Verif.Props12
import Verif.Props32

/-!
# A cache without the garbage answers the same, with any hooks

The simulation of `Sim.lean` and `SimStep.lean`, for operations in which the doctor, `Debug` and `Clone` implementations and
destructors may do anything to the outside world, and may panic.
-/

open Std

namespace Daab

variable {σ : Sig} {Y : Sys σ} {G : Id → Prop} {s t : St σ}

theorem callHook_sim {α : Type} (D : Hooks σ) (e : Hook σ) (h : Sim G s t) {k k' : St σ → St σ × Res α}
    (hk : ∀ w, (k { s with w := w }).2 ≠ .stuck → SimR G (k { s with w := w }) (k' { t with w := w }))
    (hns : (callHook D e s k).2 ≠ .stuck) : SimR G (callHook D e s k) (callHook D e t k') := by
  unfold callHook at *
  rw [h.w]
  generalize D s.w e = x at hns ⊢
  obtain ⟨w, _ | _⟩ := x
  · exact hk w hns
  · exact ⟨rfl, h.world w⟩

theorem runProgH_sim (D : Hooks σ) {g : Getter σ} (hg : GetSim G g) {p : Promise σ} (hp : ¬ G p.id) (prog : Prog σ)
    {s t : St σ} (h : Sim G s t) (hns : (runProgH Y D g p prog s).2 ≠ .stuck) :
    SimR G (runProgH Y D g p prog s) (runProgH Y D g p prog t) := by
  induction prog generalizing s t with
  | ret r => cases r <;> exact ⟨rfl, h⟩
  | panic => exact ⟨rfl, h⟩
  | resolve how q k ih =>
    rw [runProgH] at hns ⊢
    rw [runProgH]
    rw [h.live]
    split
    · next hl =>
      simp only [hl, if_true] at hns
      have hq := h.notG hl
      have h1 := h.makeKnown hq
      have hkq : q.id ∈ (s.onCache (makeKnown q)).c.known := by
        rw [mem_getElem]; simp only [St.onCache, makeKnown_getElem, if_pos]; exact ⟨_, rfl⟩
      have h2 := h1.addEdge (u := p) hq hkq
      have hkk : Daab.isKnown p.id (makeKnown q t.c) = Daab.isKnown p.id (makeKnown q s.c) := h1.isKnown hp
      unfold track at hns ⊢
      simp only [hkk] at hns ⊢
      by_cases hd : (Y.debug && !Daab.isKnown p.id (makeKnown q s.c)) = true
      · simp only [hd, if_true] at hns ⊢
        exact ⟨rfl, h1⟩
      · simp only [hd] at hns ⊢
        refine callHook_sim D (.report (.resolve p q)) (s := (s.onCache (makeKnown q)).onCache (addEdge p q))
          (t := (t.onCache (makeKnown q)).onCache (addEdge p q)) h2 (fun w hns => ?_) hns
        have h3 := hg how q _ _ (h2.world w)
        generalize g how q { (s.onCache (makeKnown q)).onCache (addEdge p q) with w := w } = x at h3 hns
        generalize g how q { (t.onCache (makeKnown q)).onCache (addEdge p q) with w := w } = y at h3
        obtain ⟨s3, r⟩ := x
        obtain ⟨t3, r'⟩ := y
        have hr : r ≠ .stuck := by rintro rfl; exact hns rfl
        obtain ⟨he, h4⟩ := h3 hr
        simp only at he h4
        obtain rfl := he.symm
        cases r with
        | val r => exact ih r h4 hns
        | panic k => exact ⟨rfl, h4⟩
        | stuck => exact ⟨rfl, h4⟩
        | overflow => exact ⟨rfl, h4⟩
    · exact ⟨rfl, h⟩
  | myState f k ih =>
    rw [runProgH] at hns ⊢
    rw [runProgH]
    have h1 := h.myState (Y := Y) hp f
    generalize myState Y p f s = x at h1 hns
    generalize myState Y p f t = y at h1
    obtain ⟨s3, r⟩ := x
    obtain ⟨t3, r'⟩ := y
    obtain ⟨he, h4⟩ := h1
    simp only at he h4
    obtain rfl := he.symm
    cases r with
    | val r => exact ih r h4 hns
    | panic k => exact ⟨rfl, h4⟩
    | stuck => exact ⟨rfl, h4⟩
    | overflow => exact ⟨rfl, h4⟩
  | world f k ih =>
    rw [runProgH] at hns ⊢
    rw [runProgH, h.w]
    exact ih s.w (h.world _) hns
  | alloc q k ih =>
    rw [runProgH] at hns ⊢
    rw [runProgH]
    cases ha : allocB q s with
    | none => rw [ha] at hns; exact absurd rfl hns
    | some s1 =>
      rw [ha] at hns
      obtain ⟨t1, h1, h2⟩ := h.alloc ha
      rw [h1]
      exact ih h2 hns
  | free a k ih =>
    rw [runProgH] at hns ⊢
    rw [runProgH]
    exact ih (h.free a) hns

theorem storeH_sim (D : Hooks σ) {p : Promise σ} (hp : ¬ G p.id) (v : σ.V) (h : Sim G s t)
    (hns : (storeH D p v s).2 ≠ .stuck) : SimR G (storeH D p v s) (storeH D p v t) := by
  have h1 := h.setArt (a := p.id) v (.built p v)
  unfold storeH at *
  simp only [h.art p.id hp] at *
  generalize s.c.artifacts[p.id]? = o at hns ⊢
  cases o with
  | none => exact ⟨rfl, h1⟩
  | some old => exact callHook_sim D (.drop old) h1 (fun w _ => ⟨rfl, h1.world w⟩) hns

theorem buildH_sim (D : Hooks σ) {g : Getter σ} (hg : GetSim G g) : BuildSim G (buildH Y D g) := by
  intro p s t h hp hns
  have hca : containsArtifact p.id t.c = containsArtifact p.id s.c := by
    have := h.art p.id hp
    simp only [containsArtifact]
    grind
  unfold buildH at hns ⊢
  simp only [hca] at hns ⊢
  by_cases hd : (Y.debug && containsArtifact p.id s.c) = true
  · simp only [hd, if_true]; exact ⟨rfl, h⟩
  · simp only [hd] at hns ⊢
    have h1 := (h.makeKnown hp).ensureDyn (Y := Y) hp
    generalize ensureDyn Y p (s.onCache (makeKnown p)) = x at h1 hns
    generalize ensureDyn Y p (t.onCache (makeKnown p)) = y at h1
    obtain ⟨s3, r⟩ := x
    obtain ⟨t3, r'⟩ := y
    obtain ⟨he, h4⟩ := h1
    simp only at he h4
    obtain rfl := he.symm
    cases r with
    | panic k => exact ⟨rfl, h4⟩
    | stuck => exact ⟨rfl, h4⟩
    | overflow => exact ⟨rfl, h4⟩
    | val d =>
      simp only at hns ⊢
      refine callHook_sim D (.handle p) h4 (fun w hns => ?_) hns
      have h5 := runProgH_sim (Y := Y) D hg hp (Y.code p.b) ((h4.world w).emit (.call p) (.call p))
      generalize runProgH Y D g p (Y.code p.b) (St.onCache { s3 with w := w } (·.emit (.call p))) = x at h5 hns
      generalize runProgH Y D g p (Y.code p.b) (St.onCache { t3 with w := w } (·.emit (.call p))) = y at h5
      obtain ⟨s6, r⟩ := x
      obtain ⟨t6, r'⟩ := y
      have hr : r ≠ .stuck := by rintro rfl; exact hns rfl
      obtain ⟨he, h7⟩ := h5 hr
      simp only at he h7
      obtain rfl := he.symm
      rcases r with (e | v) | k | _ | _
      · exact ⟨rfl, h7⟩
      · exact callHook_sim D (.report (.built p v)) h7 (fun w hns => storeH_sim D hp v (h7.world w) hns) hns
      · exact ⟨rfl, h7⟩
      · exact ⟨rfl, h7⟩
      · exact ⟨rfl, h7⟩

theorem getClonedH_sim (D : Hooks σ) {bld : BuildFn σ} (hb : BuildSim G bld) {p : Promise σ} (hp : ¬ G p.id)
    (h : Sim G s t) (hns : (getClonedH Y D bld p s).2 ≠ .stuck) :
    SimR G (getClonedH Y D bld p s) (getClonedH Y D bld p t) := by
  unfold getClonedH at *
  have h1 := getRef_sim (Y := Y) hb hp h
  generalize getRef Y bld p s = x at h1 hns
  generalize getRef Y bld p t = y at h1
  obtain ⟨s3, r⟩ := x
  obtain ⟨t3, r'⟩ := y
  have hr : r ≠ .stuck := by rintro rfl; exact hns rfl
  obtain ⟨he, h4⟩ := h1 hr
  simp only at he h4
  obtain rfl := he.symm
  rcases r with (e | v) | k | _ | _
  · exact ⟨rfl, h4⟩
  · exact callHook_sim D (.clone v) h4 (fun w _ => ⟨rfl, h4.world w⟩) hns
  all_goals exact ⟨rfl, h4⟩

theorem getByH_sim (D : Hooks σ) {bld : BuildFn σ} (hb : BuildSim G bld) : GetSim G (getByH Y D bld) := by
  intro how p s t h hns
  unfold getByH at *
  rw [h.live]
  split
  · next hl =>
    simp only [hl, if_true] at hns
    have hp := h.notG hl
    cases how with
    | bin => exact getBin_sim hb hp h hns
    | ref => exact getRef_sim hb hp h hns
    | cloned => exact getClonedH_sim D hb hp h hns
  · exact ⟨rfl, h⟩

theorem buildNH_sim (D : Hooks σ) (n : Nat) : BuildSim G (buildNH Y D n) ∧ GetSim G (getAH Y D n) := by
  induction n with
  | zero =>
    have : BuildSim G (buildNH Y D 0) := fun p s t h _ _ => ⟨rfl, h⟩
    exact ⟨this, by rw [getAH_eq]; exact getByH_sim D this⟩
  | succ n ih =>
    have : BuildSim G (buildNH Y D (n + 1)) := buildH_sim D ih.2
    exact ⟨this, by rw [getAH_eq]; exact getByH_sim D this⟩

/-! ## Operations -/

theorem Sim.dynStateMutH (h : Sim G s t) (hs : Inv Y s) (ht : Inv Y t) (D : Hooks σ) (ord ord' : HashOrder)
    {p : Promise σ} (hp : ¬ G p.id) (f : σ.S → σ.S) (hns : (Daab.dynStateMutH Y D ord p f s).2 ≠ .stuck) :
    SimR G (Daab.dynStateMutH Y D ord p f s) (Daab.dynStateMutH Y D ord' p f t) := by
  obtain ⟨he, hsim⟩ := h.invalidate hs ht ord ord' hp
  obtain ⟨c, e1, d1⟩ := invalidate_spec hs ord p
  obtain ⟨d, e2, d2⟩ := invalidate_spec ht ord' p
  unfold Daab.dynStateMutH at *
  rw [e1, e2] at hsim
  rw [e1] at hns ⊢
  rw [e2]
  simp only at hsim hns ⊢
  refine callHook_sim D (.report (.invalidate p)) hsim (fun w hns => ?_) hns
  have h1 := (hsim.world w).ensureDyn (Y := Y) hp
  simp only at h1 hns ⊢
  generalize Daab.ensureDyn Y p { s with c := c.emit (.invalidate p), w := w } = x at h1
  generalize Daab.ensureDyn Y p { t with c := d.emit (.invalidate p), w := w } = y at h1
  obtain ⟨s1, r⟩ := x
  obtain ⟨t1, r'⟩ := y
  obtain ⟨he, h1⟩ := h1
  simp only at he h1
  obtain rfl := he.symm
  cases r with
  | val d =>
    simp only
    split
    · refine ⟨rfl, ?_⟩
      have := h1.setDyn (a := p.id) (f d) s1.w (.setDyn p (f d))
      exact { this with w := h1.w }
    · exact ⟨rfl, h1⟩
  | panic k => exact ⟨rfl, h1⟩
  | stuck => exact ⟨rfl, h1⟩
  | overflow => exact ⟨rfl, h1⟩

theorem Sim.thenTell (D : Hooks σ) (p : Promise σ) {x y : Cache σ × LoopEnd} (h1 : y.2 = x.2)
    (h2 : Sim G { s with c := x.1 } { t with c := y.1 }) (hns : (Daab.thenTell D p s x).2 ≠ .stuck) :
    SimR G (Daab.thenTell D p s x) (Daab.thenTell D p t y) := by
  obtain ⟨c, e⟩ := x
  obtain ⟨d, e'⟩ := y
  simp only at h1 h2
  subst h1
  unfold Daab.thenTell at *
  cases e' with
  | done => exact callHook_sim D (.report (.invalidate p)) h2 (fun w _ => ⟨rfl, h2.world w⟩) hns
  | panic k => exact ⟨rfl, h2⟩
  | outOfFuel => exact ⟨rfl, h2⟩

theorem getMut_sim (h : Sim G s t) (hs : Inv Y s) (ht : Inv Y t) {bld : BuildFn σ} (hb : BuildSim G bld) (ord ord' : HashOrder)
    {p : Promise σ} (hl : s.live p = true) :
    (getMut Y ord bld p s).2 = .panic .noCounterpart ∨ (getMut Y ord bld p s).2 = .stuck ∨
      SimR G (getMut Y ord bld p s) (getMut Y ord' bld p t) := by
  have hp := h.notG hl
  rcases h.lookupMut hs ht ord ord' hl with h1 | ⟨c, d, e1, e2, i1, i2, h2⟩
  · left
    unfold getMut
    generalize Daab.lookupMut Y ord p s.c = x at h1
    obtain ⟨c, r⟩ := x
    simp only at h1
    subst h1
    rfl
  · right
    unfold getMut
    rw [e1, e2]
    cases ha : c.artifacts[p.id]? with
    | none =>
      simp only
      by_cases hst : (fresh Y p (bld p { s with c := c })).2 = .stuck
      · exact .inl hst
      · exact .inr (fresh_sim (hb p _ _ h2 hp (fresh_ns hst)))
    | some v =>
      right
      simp only
      rcases h2.lookupMut i1 i2 ord ord' (p := p) hl with h1 | ⟨c2, d2, e3, e4, _, _, h4⟩
      · exfalso
        obtain ⟨c', e', hall, hno⟩ : ∃ c', Daab.invalidateDependents Y ord p.id s.c = (c', .done) ∧ True ∧ (∀ x, ¬ Dep c' x p.id) := by
          rcases lookupMut_spec hs ord hl with ⟨c'', e, _⟩ | ⟨c'', e, hd⟩
          · rw [e1] at e; cases e
          · rcases hs.invalidateDependents ord p.id with ⟨c', he, _⟩ | ⟨c', he, _, _, hno, _⟩
            · rw [hd] at he; cases he
            · exact ⟨c', he, trivial, hno⟩
        have hcc : c' = c := by
          rcases lookupMut_spec hs ord hl with ⟨c'', e, _⟩ | ⟨c'', e, hd⟩
          · rw [e1] at e; cases e
          · rw [e1] at e; rw [hd] at e'
            cases e'; cases e; rfl
        subst hcc
        rcases lookupMut_spec i1 ord (p := p) hl with ⟨_, _, x, _, hx⟩ | ⟨_, e, _⟩
        · exact hno x hx
        · rw [e] at h1; cases h1
      · simp only at e3 e4
        rw [e3, e4]
        cases hc2 : c2.artifacts[p.id]? with
        | none => exact ⟨rfl, h4⟩
        | some v => exact ⟨rfl, h4⟩

theorem Sim.stepH (h : Sim G s t) (hs : Inv Y s) (ht : Inv Y t) (D : Hooks σ) (n : Nat) (ord ord' : HashOrder)
    (op : Op σ) (hgo : (Daab.stepH Y D n ord s op).2.goesOn) (hop : op = .numKnown → ∀ a, ¬ G a) :
    StepSim G (Daab.stepH Y D n ord s op) (Daab.stepH Y D n ord' t op) := by
  have hl : ∀ p, op.promise? = some p → s.live p = true := by
    intro p hp
    cases hl : s.live p with
    | true => rfl
    | false => simp [Daab.stepH, hp, hl] at hgo; exact hgo.elim
  have es : Daab.stepH Y D n ord s op = execH Y D n ord s op := by
    unfold Daab.stepH
    cases hp : op.promise? with
    | none => rfl
    | some p => simp only [hl p hp, if_true]
  have et : Daab.stepH Y D n ord' t op = execH Y D n ord' t op := by
    unfold Daab.stepH
    cases hp : op.promise? with
    | none => rfl
    | some p => simp only [h.live, hl p hp, if_true]
  rw [es] at hgo ⊢
  rw [et]
  have ns : ∀ {α : Type} {r : Res α} {f : α → Ans σ}, (r.map f).goesOn → r ≠ .stuck := by
    rintro α r f hg rfl; exact hg
  have plain : execH Y D n ord s op = Daab.exec Y n ord s op → execH Y D n ord' t op = Daab.exec Y n ord' t op →
      StepSim G (execH Y D n ord s op) (execH Y D n ord' t op) := by
    intro e1 e2
    rw [e1, e2]
    exact h.exec hs ht n ord ord' op hl (e1 ▸ hgo) hop
  have ns' : (execH Y D n ord s op).2 ≠ .stuck := by
    intro e; rw [e] at hgo; exact hgo
  cases op with
  | get how p =>
    simp only [execH] at *
    obtain ⟨h2, h3⟩ := (buildNH_sim (Y := Y) (G := G) D n).2 how p s t h (ns hgo)
    exact StepSim.of (by rw [h2]) h3
  | getMut p f =>
    have hlp := hl p rfl
    simp only [execH] at hgo ⊢
    have key := getMut_sim h hs ht (buildNH_sim (Y := Y) (G := G) D n).1 ord ord' hlp
    generalize getMut Y ord (buildNH Y D n) p s = x at key hgo
    generalize getMut Y ord' (buildNH Y D n) p t = y at key
    obtain ⟨s1, r⟩ := x
    obtain ⟨t1, r'⟩ := y
    rcases key with rfl | rfl | ⟨he, h1⟩
    · exact absurd rfl hgo
    · exact absurd hgo id
    · simp only at he h1
      obtain rfl := he.symm
      rcases r with (e | v) | k | _ | _
      · exact StepSim.of rfl h1
      · simp only at hgo ⊢
        cases hw : Daab.writeArt Y p f v s1.c with
        | none => rw [hw] at hgo; exact absurd hgo id
        | some c =>
          obtain ⟨d, hd, h2⟩ := h1.writeArt hw
          simp only [hd]
          exact StepSim.of rfl h2
      · exact StepSim.of rfl h1
      · exact StepSim.of rfl h1
      · exact StepSim.of rfl h1
  | lookup how p =>
    have hp := h.notG (hl p rfl)
    cases how with
    | bin => exact plain rfl rfl
    | ref => exact plain rfl rfl
    | cloned =>
      simp only [execH, lookupByH] at hgo ⊢
      rw [h.lookupRef hp]
      cases hr : Daab.lookupRef Y p s.c with
      | val o =>
        rw [hr] at hgo
        cases o with
        | none => exact StepSim.of rfl h
        | some v =>
          obtain ⟨h1, h2⟩ := callHook_sim (α := Option σ.V) D (.clone v) h (k := fun s => (s, .val (some (Y.clone v))))
            (k' := fun s => (s, .val (some (Y.clone v)))) (fun w _ => ⟨rfl, h.world w⟩) (ns hgo)
          exact StepSim.of (by rw [h1]) h2
      | panic k => exact StepSim.of rfl h
      | stuck => exact StepSim.of rfl h
      | overflow => exact StepSim.of rfl h
  | dynStateMut p f =>
    simp only [execH] at *
    obtain ⟨h1, h2⟩ := h.dynStateMutH hs ht D ord ord' (h.notG (hl p rfl)) f (ns hgo)
    exact StepSim.of (by rw [h1]) h2
  | invalidate p =>
    obtain ⟨h1, h2⟩ := h.invalidate hs ht ord ord' (h.notG (hl p rfl))
    simp only [execH] at *
    obtain ⟨h3, h4⟩ := Sim.thenTell D p h1 h2 ns'
    exact StepSim.of h3 h4
  | purge p =>
    obtain ⟨h1, h2⟩ := h.purge hs ht ord ord' (h.notG (hl p rfl))
    simp only [execH] at *
    obtain ⟨h3, h4⟩ := Sim.thenTell D p h1 h2 ns'
    exact StepSim.of h3 h4
  | clearAll =>
    simp only [execH] at *
    obtain ⟨h1, h2⟩ := callHook_sim (α := Ans σ) D (.report .clear) h.clearAll (k := fun s => (s, .val .unit)) (k' := fun s => (s, .val .unit))
      (fun w _ => ⟨rfl, h.clearAll.world w⟩) ns'
    exact ⟨h1, _, fun _ _ => id, h2⟩
  | _ => exact plain rfl rfl

end Daab
