import Verif.Dag
import Verif.KnownDyn

/-!
# Proving invariants by looking at one builder's code at a time

`getA_preserves`: a predicate on states is preserved by `get` if it is preserved by each `build` under
the assumption that nested `get`s preserve it.  `step_preserves`: the same for whole operations.
-/

open Std

namespace Daab

variable {σ : Sig} {Y : Sys σ} {s : St σ}

/-- The getter preserves `J` unless the run is not a real one. -/
def Preserves (Y : Sys σ) (J : St σ → Prop) (g : Getter σ) : Prop :=
  ∀ how p s, Inv Y s → J s → (g how p s).2.ended → J (g how p s).1

/-- The steps the code of `p` takes itself, if it only resolves promises in `L`. -/
inductive OwnStep (Y : Sys σ) (L : Promise σ → Prop) (p : Promise σ) : St σ → St σ → Prop
  | track {s : St σ} (q : Promise σ) : L q → s.live q = true → OwnStep Y L p s (tracked p q s)
  | wrote {s : St σ} (d : σ.S) : Y.stTy d = Y.sty p.b → OwnStep Y L p s (wrote p d s)
  | world {s : St σ} (w : σ.W) : OwnStep Y L p s { s with w := w }
  | alloc {s s' : St σ} (q : Promise σ) : allocB q s = some s' → OwnStep Y L p s s'
  | free {s : St σ} (a : Id) : OwnStep Y L p s (freeB a s)

theorem OwnStep.micros {L : Promise σ → Prop} {p : Promise σ} {s' : St σ} (h : OwnStep Y L p s s') (hr : Running Y p s) :
    Micros Y s s' := by
  cases h with
  | track q _ hl => exact hr.tracked hl
  | wrote d ht => exact .single (.setDyn p d hr.known hr.dyn ht)
  | world w => exact .single (.world w)
  | alloc q h => exact .single (.alloc q h)
  | free a => exact .single (.free a)

theorem ended_val {α : Type} (a : α) : (Res.val a).ended := ⟨by simp, by simp⟩
theorem ended_panic {α : Type} (k : Panic) : (Res.panic k : Res α).ended := ⟨by simp, by simp⟩

theorem Prog.only_true (prog : Prog σ) : prog.only fun _ => True := by
  induction prog <;> simp_all [Prog.only]

/-- A predicate preserved by nested getters and by the own steps of the code is preserved by the
code. -/
theorem runProg_preserves {J : St σ → Prop} {g : Getter σ} (hg : GetOk Y g) (hp : Preserves Y J g)
    {L : Promise σ → Prop} {p : Promise σ}
    (hs : ∀ s s', Running Y p s → OwnStep Y L p s s' → J s → J s') (prog : Prog σ) (ho : prog.only L)
    (hr : Running Y p s) (h : J s) (he : (runProg Y g p prog s).2.ended) :
    J (runProg Y g p prog s).1 := by
  induction prog generalizing s with
  | ret r => cases r <;> exact h
  | panic => exact h
  | resolve how q k ih =>
    cases hl : s.live q with
    | false => rw [runProg_resolve_dead hl]; exact h
    | true =>
      rw [runProg_resolve hr hl] at he ⊢
      have hr1 := hr.micros (hr.tracked hl)
      have h1 := hs _ _ hr (.track q ho.1 hl) h
      have h2 := hp how q _ hr1.inv h1
      have m2 := (hg.ran how q _ hr1.inv).micros
      generalize g how q (tracked p q s) = x at he h2 m2
      obtain ⟨s2, r⟩ := x
      cases r with
      | val r => exact ih r (ho.2 r) (hr1.micros m2) (h2 (ended_val _)) he
      | panic k => exact h2 (ended_panic _)
      | stuck => exact absurd rfl he.1
      | overflow => exact absurd rfl he.2
  | myState f k ih =>
    obtain ⟨d, hd0, ⟨_, e⟩ | ⟨m, e⟩⟩ := runProg_myState_cases hr g f k
    · rw [e]; exact h
    · by_cases ht : Y.stTy (f d) = Y.sty p.b
      · rw [e] at he ⊢
        exact ih d (ho d) (hr.micro m) (hs _ _ hr (.wrote (f d) ht) h) he
      · obtain ⟨d', hd', _, e'⟩ := hr.myState_eq f
        rw [hd0] at hd'
        cases hd'
        rw [if_neg ht] at e'
        rw [runProg_myState, e'] at he
        exact absurd rfl he.1
  | world f k ih =>
    exact ih s.w (ho s.w) (hr.micro (.world _)) (hs _ _ hr (.world _) h) he
  | alloc q k ih =>
    simp only [runProg] at he ⊢
    cases ha : allocB q s with
    | none => exact h
    | some s' =>
      rw [ha] at he
      exact ih ho (hr.micro (.alloc q ha)) (hs _ _ hr (.alloc q ha) h) he
  | free a k ih => exact ih ho (hr.micro (.free a)) (hs _ _ hr (.free a) h) he

/-- The build function preserves `J`. -/
def BuildPreserves (Y : Sys σ) (J : St σ → Prop) (bld : BuildFn σ) : Prop :=
  ∀ p s, Inv Y s → J s → s.live p = true → s.c.artifacts[p.id]? = none → (bld p s).2.ended →
    J (bld p s).1

theorem getA_preserves {J : St σ → Prop}
    (hb : ∀ n, Preserves Y J (getA Y n) → BuildPreserves Y J (build Y (getA Y n))) (n : Nat) :
    Preserves Y J (getA Y n) ∧ BuildPreserves Y J (buildN Y n) := by
  have key : ∀ n, BuildPreserves Y J (buildN Y n) → Preserves Y J (getA Y n) := by
    intro n h how p s hi hj he
    cases hl : s.live p with
    | false => rw [getA_dead n how hl]; exact hj
    | true =>
      cases ha : s.c.artifacts[p.id]? with
      | some v => rw [getA_hit n how hi hl ha]; exact hj
      | none =>
        rw [getA_miss n how hi hl ha] at he ⊢
        refine h p s hi hj hl ha ?_
        simp only at he
        generalize (buildN Y n p s).2 = r at he
        rcases r with (_ | v) | _ | _ | _
        · exact he
        · exact ended_val _
        · exact he
        · exact he
        · exact he
  induction n with
  | zero =>
    have h : BuildPreserves Y J (buildN Y 0) := fun p s _ _ _ _ he => absurd rfl he.2
    exact ⟨key 0 h, h⟩
  | succ n ih =>
    have h : BuildPreserves Y J (buildN Y (n + 1)) := hb n ih.1
    exact ⟨key _ h, h⟩

/-- What must be checked for a single build: initialisation, start, own steps, end. -/
theorem build_preserves {J : St σ → Prop} {n : Nat} {p : Promise σ} {L : Promise σ → Prop}
    (ho : (Y.code p.b).only L) (hp : Preserves Y J (getA Y n))
    (hinit : ∀ s, Inv Y s → s.live p = true → J s → (ensureDyn Y p s).2.ended → J (ensureDyn Y p s).1)
    (hcall : ∀ s, Running Y p (entered p s) → J s → J (entered p s))
    (hs : ∀ s s', Running Y p s → OwnStep Y L p s s' → J s → J s')
    (hend : ∀ s s' v, Running Y p s → Running Y p s' →
      runProg Y (getA Y n) p (Y.code p.b) s = (s', .val (.ok v)) → J s' →
      J (finish p (s', .val (.ok v))).1)
    (hi : Inv Y s) (hj : J s) (hl : s.live p = true) (ha : s.c.artifacts[p.id]? = none)
    (he : (build Y (getA Y n) p s).2.ended) : J (build Y (getA Y n) p s).1 := by
  have h1 := hinit s hi hl hj
  rcases build_cases (getA Y n) hi hl ha with ⟨s1, e1, e2⟩ | ⟨s1, e1, e2⟩ | ⟨s1, d, e1, e2⟩
  · rw [e2]; rw [e1] at h1; exact h1 (ended_panic _)
  · rw [e2] at he; exact absurd rfl he.1
  · rw [e1] at h1
    rw [e2] at he ⊢
    obtain ⟨hr, _, _, _⟩ := ensureDyn_running hi hl ha e1
    have h2 := hcall s1 hr (h1 (ended_val _))
    have h3 := runProg_preserves (getA_ok Y n).1 hp hs (Y.code p.b) ho hr h2
    have h4 := hr.run (getA_ok Y n).1 (Y.code p.b)
    have h5 := hend (entered p s1)
    generalize runProg Y (getA Y n) p (Y.code p.b) (entered p s1) = x at he h3 h4 h5
    obtain ⟨s', r⟩ := x
    rcases r with (e | v) | k | _ | _
    · exact h3 (ended_val _)
    · exact h5 s' v hr (hr.micros h4.micros) rfl (h3 (ended_val _))
    · exact h3 (ended_panic _)
    · exact absurd rfl he.1
    · exact absurd rfl he.2

/-! ## Operations -/

/-- The transitions of operations in `A` other than building and initialising dynamic states. -/
inductive Rest (A : Op σ → Prop) : St σ → St σ → Prop
  | inval {s : St σ} (p : Promise σ) (c' : Cache σ) : Dropped (Hit (Dep s.c) p.id) s.c c' →
      Rest A s { s with c := c'.emit (.invalidate p) }
  | purge {s : St σ} (p : Promise σ) (c' : Cache σ) : Dropped (Hit (Dep s.c) p.id) s.c c' →
      Rest A s { s with c := { c' with
        known := s.c.known.erase p.id, dynStates := s.c.dynStates.erase p.id,
        log := .invalidate p :: .purged p :: s.c.log } }
  | gc {s : St σ} (c' : Cache σ) (l : List Id) :
      (∀ x, x ∈ l ↔ Garbage s x) → c'.log = l.map Event.collect ++ s.c.log →
      Swept (Garbage s) s.c c' → Rest A s { s with c := c' }
  | mutDeps {s : St σ} (a : Id) (c' : Cache σ) : (∀ x, Dep s.c x a → x = a) →
      c'.known = s.c.known → c'.dynStates = s.c.dynStates →
      (∀ x v, c'.artifacts[x]? = some v ↔ s.c.artifacts[x]? = some v ∧ ¬ StrictHit (Dep s.c) a x) →
      (∀ u d, Dep c' u d ↔ Dep s.c u d ∧ ¬ StrictHit (Dep s.c) a u) →
      c'.log = .mutDeps a :: s.c.log → Thinner c' s.c → Rest A s { s with c := c' }
  | write {s : St σ} (p : Promise σ) (v : σ.V) (f : σ.V → σ.V) :
      A (.getMut p f) ∨ A (.lookupMut p f) → s.c.known[p.id]? = some p.b →
      s.c.artifacts[p.id]? = some v →
      Rest A s (s.onCache fun c =>
        { c with artifacts := c.artifacts.insert p.id (f v) }.emit (.write p.id (f v)))
  | clearArtifacts {s : St σ} : Rest A s (s.onCache clearArtifacts)
  | clearAll {s : St σ} : Rest A s (s.onCache clearAll)
  | alloc {s s' : St σ} (q : Promise σ) : allocB q s = some s' → Rest A s s'
  | free {s : St σ} (a : Id) : Rest A s (freeB a s)
  | world {s : St σ} (f : σ.W → σ.W) : A (.world f) → Rest A s { s with w := f s.w }

theorem Inv.live_art_known (hi : Inv Y s) {p : Promise σ} (hl : s.live p = true) {v : σ.V}
    (ha : s.c.artifacts[p.id]? = some v) : s.c.known[p.id]? = some p.b := by
  have hk := hi.dynKnown _ (hi.artDyn p.id ((mem_getElem _ _).2 ⟨v, ha⟩))
  have := hi.live_known hl
  rw [mem_getElem] at hk
  obtain ⟨b', hb'⟩ := hk
  rw [makeKnown_getElem] at this
  grind

theorem invalidateDependents_rest {A : Op σ → Prop} (hi : Inv Y s) {ord : HashOrder} {a : Id}
    {c' : Cache σ} (h : invalidateDependents Y ord a s.c = (c', .done)) :
    Rest A s { s with c := c' } ∧ Inv Y { s with c := c' } := by
  rcases hi.invalidateDependents ord a with ⟨c1, h1, _⟩ | ⟨c1, h1, h2, h3, _, h4, h5, h6, h7, h8, _, h9⟩
  · rw [h] at h1; cases h1
  · rw [h] at h1; cases h1
    exact ⟨.mutDeps a c' h2 h4 h5 h6 h7 h8 h9, h3⟩

theorem writeArt_rest {A : Op σ → Prop} {p : Promise σ} {f : σ.V → σ.V} {v : σ.V}
    (hA : A (.getMut p f) ∨ A (.lookupMut p f)) (hk : s.c.known[p.id]? = some p.b)
    (hv : s.c.artifacts[p.id]? = some v) {c' : Cache σ}
    (h : writeArt Y p f v s.c = some c') : Rest A s { s with c := c' } := by
  unfold writeArt at h
  split at h
  · cases h; exact .write p v f hA hk hv
  · cases h

/-- The conditions for `J` to be preserved by the operations in `A`. -/
structure OpsPreserve (Y : Sys σ) (J : St σ → Prop) (A : Op σ → Prop) : Prop where
  bld : ∀ n, Preserves Y J (getA Y n) → BuildPreserves Y J (build Y (getA Y n))
  init : ∀ p s, Inv Y s → s.live p = true → J s → (ensureDyn Y p s).2.ended → J (ensureDyn Y p s).1
  rest : ∀ s s', Inv Y s → Rest A s s' → J s → J s'
  set : ∀ p f s d, A (.dynStateMut p f) → Inv Y s → s.c.known[p.id]? = some p.b →
    s.c.artifacts[p.id]? = none →
    s.c.dynStates[p.id]? = some d → Y.stTy (f d) = Y.sty p.b → J s → J (wrote p (f d) s)

theorem getMutWrite_preserves {J : St σ → Prop} {A : Op σ → Prop} (h : OpsPreserve Y J A) (hi : Inv Y s)
    {bld : BuildFn σ} (hbld : BuildOk Y bld) (hpb : BuildPreserves Y J bld)
    (hkn : ∀ (p : Promise σ) (s : St σ), Inv Y s → s.live p = true → s.c.artifacts[p.id]? = none →
      (bld p s).2 ≠ .overflow → (bld p s).1.c.known[p.id]? = some p.b)
    (ord : HashOrder) {p : Promise σ} {f : σ.V → σ.V} (hA : A (.getMut p f)) (hl : s.live p = true)
    (hg : (getMutWrite Y ord bld p f s).2.goesOn) (hj : J s) : J (getMutWrite Y ord bld p f s).1 := by
  unfold getMutWrite at hg ⊢
  rcases getMut_spec_of hi hbld ord hl with ⟨c', he, _⟩ | ⟨c1, h1, ⟨c2, v, _, h12, h2, hinv, he⟩ | ⟨h2, he⟩⟩
  · rw [he] at hg; exact absurd rfl hg
  · obtain ⟨t1, i1⟩ := invalidateDependents_rest hi h1
    have j1 := h.rest _ _ hi t1 hj
    obtain ⟨t2, i2⟩ := invalidateDependents_rest i1 h12
    have j2 := h.rest _ _ i1 t2 j1
    rw [he] at hg ⊢
    simp only at hg ⊢
    cases hw : writeArt Y p f v c2 with
    | none => rw [hw] at hg; exact hg.elim
    | some c' => exact h.rest _ _ i2 (writeArt_rest (s := { s with c := c2 }) (.inl hA) (i2.live_art_known hl h2) h2 hw) j2
  · obtain ⟨t1, i1⟩ := invalidateDependents_rest hi h1
    have j1 := h.rest _ _ hi t1 hj
    rw [he] at hg ⊢
    have hb := hbld.ran p { s with c := c1 } i1 hl h2
    have hok := hbld.ok p { s with c := c1 } i1 hl h2
    have j2 := hpb p { s with c := c1 } i1 j1 hl h2
    have hkn := hkn p { s with c := c1 } i1 hl h2
    generalize bld p { s with c := c1 } = x at hb hok hg j2 hkn
    obtain ⟨s', r⟩ := x
    rcases r with (_ | v) | k | _ | _
    · exact j2 (ended_val _)
    · simp only at hg ⊢
      cases hw : writeArt Y p f v s'.c with
      | none => rw [hw] at hg; exact hg.elim
      | some c' =>
        exact h.rest _ _ (hb.inv i1) (writeArt_rest (.inl hA) (hkn (by simp)) (hok v rfl).1 hw) (j2 (ended_val _))
    · exact j2 (ended_panic _)
    · exact hg.elim
    · exact hg.elim

theorem exec_preserves {J : St σ → Prop} {A : Op σ → Prop} (h : OpsPreserve Y J A) (hi : Inv Y s)
    (n : Nat) (ord : HashOrder) (op : Op σ) (hA : A op)
    (hl : ∀ p, op.promise? = some p → s.live p = true)
    (hg : (exec Y n ord s op).2.goesOn) (hj : J s) : J (exec Y n ord s op).1 := by
  have hpg := getA_preserves h.bld n
  cases op with
  | get how p =>
    refine hpg.1 how p s hi hj ?_
    simp only [exec] at hg
    generalize (getA Y n how p s).2 = r at hg
    cases r with
    | val => exact ended_val _
    | panic => exact ended_panic _
    | stuck => exact hg.elim
    | overflow => exact hg.elim
  | getMut p f =>
    exact getMutWrite_preserves h hi (getA_ok Y n).2 hpg.2 (fun _ _ h => buildN_known h) ord hA (hl p rfl) hg hj
  | lookup how p => exact hj
  | lookupMut p f =>
    have hl := hl p rfl
    simp only [Daab.exec] at hg ⊢
    rcases lookupMut_spec hi ord hl with ⟨c', he, _⟩ | ⟨c1, he, h1⟩
    · rw [he] at hg; exact absurd rfl hg
    · obtain ⟨t1, i1⟩ := invalidateDependents_rest hi h1
      have j1 := h.rest _ _ hi t1 hj
      rw [he] at hg ⊢
      cases ha : c1.artifacts[p.id]? with
      | none => exact j1
      | some v =>
        rw [ha] at hg
        simp only at hg ⊢
        cases hw : writeArt Y p f v c1 with
        | none => exact j1
        | some c' => exact h.rest _ _ i1 (writeArt_rest (s := { s with c := c1 }) (.inr hA) (i1.live_art_known hl ha) ha hw) j1
  | dynState p =>
    refine h.init p s hi (hl p rfl) hj ?_
    simp only [exec] at hg
    generalize (ensureDyn Y p s).2 = r at hg
    cases r with
    | val => exact ended_val _
    | panic => exact ended_panic _
    | stuck => exact hg.elim
    | overflow => exact hg.elim
  | getDynState p => exact hj
  | dynStateMut p f =>
    have hl := hl p rfl
    simp only [Daab.exec] at hg ⊢
    obtain ⟨c', he, hd⟩ := invalidate_spec hi ord p
    have i1 := hi.invalidated hd
    have j1 := h.rest _ _ hi (.inval p c' hd) hj
    unfold dynStateMut at hg ⊢
    rw [he] at hg ⊢
    simp only at hg ⊢
    have hen := ensureDyn_ran i1 (p := p) hl
    have j2 := h.init p _ i1 hl j1
    have hnone : c'.artifacts[p.id]? = none := hd.art_none _ .refl
    generalize ensureDyn Y p { s with c := c'.emit (.invalidate p) } = x at hen hg j2
    obtain ⟨s1, r⟩ := x
    obtain ⟨hr, hk, ha, hdv⟩ := hen
    cases r with
    | val d =>
      simp only at hg ⊢
      split
      · next ht =>
        have hm := hdv d rfl
        refine h.set p f s1 d hA (hr.inv i1) hk ?_ hm ht (j2 (ended_val _))
        simp only at ha
        rw [ha]
        exact hnone
      · next ht => rw [if_neg ht] at hg; exact hg.elim
    | panic k => exact j2 (ended_panic _)
    | stuck => exact hg.elim
    | overflow => exact hg.elim
  | isKnown p => exact hj
  | numKnown => exact hj
  | invalidate p =>
    obtain ⟨c', he, hd⟩ := invalidate_spec hi ord p
    simp only [Daab.exec, he]
    exact h.rest _ _ hi (.inval p c' hd) hj
  | purge p =>
    obtain ⟨c', cF, he, hd, hF⟩ := purge_spec hi ord p
    subst hF
    simp only [Daab.exec, he]
    exact h.rest _ _ hi (.purge p c' hd) hj
  | clearArtifacts => exact h.rest _ _ hi .clearArtifacts hj
  | clearAll => exact h.rest _ _ hi .clearAll hj
  | gc =>
    simp only [Daab.exec]
    rcases gc_spec hi ord with ⟨h, _⟩ | ⟨_, c', h7, h1, l, h6, h8⟩
    · rw [h]; exact hj
    · rw [h7]
      exact h.rest _ _ hi (.gc c' l h6 h8 h1) hj
  | alloc p =>
    simp only [Daab.exec]
    cases ha : allocB p s with
    | none => exact hj
    | some s' => exact h.rest _ _ hi (.alloc p ha) hj
  | free a => exact h.rest _ _ hi (.free a) hj
  | world f => exact h.rest _ _ hi (.world f hA) hj

theorem step_preserves {J : St σ → Prop} {A : Op σ → Prop} (h : OpsPreserve Y J A) (hi : Inv Y s)
    (n : Nat) (ord : HashOrder) (op : Op σ) (hA : A op)
    (hg : (step Y n ord s op).2.goesOn) (hj : J s) : J (step Y n ord s op).1 := by
  unfold Daab.step at *
  cases hp : op.promise? with
  | none =>
    simp only [hp] at hg ⊢
    exact exec_preserves h hi n ord op hA (by intro p h; rw [hp] at h; cases h) hg hj
  | some p =>
    simp only [hp] at hg ⊢
    split
    · next hl =>
      simp only [hl, if_true] at hg
      exact exec_preserves h hi n ord op hA (by intro q h; rw [hp] at h; cases h; exact hl) hg hj
    · exact hj

/-! ## With hooks -/

theorem runProgH_preserves {J : St σ → Prop} (D : Hooks σ) {g : Getter σ} (hg : GetRan Y g) (hp : Preserves Y J g)
    {L : Promise σ → Prop} {p : Promise σ}
    (hs : ∀ s s', Running Y p s → OwnStep Y L p s s' → J s → J s') (prog : Prog σ) (ho : prog.only L)
    (hr : Running Y p s) (h : J s) (he : (runProgH Y D g p prog s).2.ended) :
    J (runProgH Y D g p prog s).1 := by
  induction prog generalizing s with
  | ret r => cases r <;> exact h
  | panic => exact h
  | resolve how q k ih =>
    cases hl : s.live q with
    | false => rw [runProgH_resolve_dead hl]; exact h
    | true =>
      rw [runProgH_resolve hr hl] at he ⊢
      have hr1 := hr.micros (hr.tracked hl)
      have h1 := hs _ _ hr (.track q ho.1 hl) h
      obtain ⟨w, e | e⟩ := callHook_cases D (.report (.resolve p q)) (tracked p q s) fun s =>
        andThen (g how q s) fun r s => runProgH Y D g p (k r) s
      · rw [e]; exact hs _ _ hr1 (.world w) h1
      rw [e] at he ⊢
      replace h1 := hs _ _ hr1 (.world w) h1
      replace hr1 := hr1.micro (.world w)
      have h2 := hp how q _ hr1.inv h1
      have m2 := (hg how q _ hr1.inv).micros
      generalize g how q { tracked p q s with w := w } = x at he h2 m2
      obtain ⟨s2, r⟩ := x
      cases r with
      | val r => exact ih r (ho.2 r) (hr1.micros m2) (h2 (ended_val _)) he
      | panic k => exact h2 (ended_panic _)
      | stuck => exact absurd rfl he.1
      | overflow => exact absurd rfl he.2
  | myState f k ih =>
    obtain ⟨d, hd0, hst, e⟩ := hr.myState_eq f
    rw [runProgH_myState, e] at he ⊢
    split at he
    · next ht =>
      rw [if_pos ht]
      exact ih d (ho d) (hr.micro (.setDyn p (f d) hr.known hr.dyn ht)) (hs _ _ hr (.wrote (f d) ht) h) he
    · exact absurd rfl he.1
  | world f k ih =>
    exact ih s.w (ho s.w) (hr.micro (.world _)) (hs _ _ hr (.world _) h) he
  | alloc q k ih =>
    simp only [runProgH] at he ⊢
    cases ha : allocB q s with
    | none => exact h
    | some s' =>
      rw [ha] at he
      exact ih ho (hr.micro (.alloc q ha)) (hs _ _ hr (.alloc q ha) h) he
  | free a k ih => exact ih ho (hr.micro (.free a)) (hs _ _ hr (.free a) h) he

theorem getByH_preserves {J : St σ → Prop} {D : Hooks σ} (hw : ∀ s h, J s → J { s with w := (D s.w h).1 })
    {bld : BuildFn σ}
    (hb : BuildOk Y bld) (h : BuildPreserves Y J bld) : Preserves Y J (getByH Y D bld) := by
  have href : ∀ p s, Inv Y s → s.live p = true → J s → (getBy Y bld .ref p s).2.ended →
      J (getBy Y bld .ref p s).1 := by
    intro p s hi hl hj he
    cases ha : s.c.artifacts[p.id]? with
    | some v => rw [getBy_hit hi bld .ref hl ha]; exact hj
    | none =>
      rw [getBy_miss hi hb .ref hl ha] at he ⊢
      refine h p s hi hj hl ha ?_
      simp only at he
      generalize (bld p s).2 = r at he
      rcases r with (_ | v) | _ | _ | _
      · exact he
      · exact ended_val _
      · exact he
      · exact he
      · exact he
  intro how p s hi hj he
  cases hl : s.live p with
  | false => simp only [getByH, hl]; exact hj
  | true =>
    cases how with
    | ref =>
      have := href p s hi hl hj
      simp only [getBy, getByH, hl, if_true] at this he ⊢
      exact this he
    | bin =>
      have e : getByH Y D bld .bin p s = getBy Y bld .bin p s := by simp only [getByH, getBy]
      rw [e] at he ⊢
      cases ha : s.c.artifacts[p.id]? with
      | some v => rw [getBy_hit hi bld .bin hl ha]; exact hj
      | none =>
        rw [getBy_miss hi hb .bin hl ha] at he ⊢
        refine h p s hi hj hl ha ?_
        simp only at he
        generalize (bld p s).2 = r at he
        rcases r with (_ | v) | _ | _ | _
        · exact he
        · exact ended_val _
        · exact he
        · exact he
        · exact he
    | cloned =>
      have := href p s hi hl hj
      simp only [getBy, getByH, hl, if_true, getClonedH] at this he ⊢
      generalize getRef Y bld p s = x at this he
      obtain ⟨s1, r⟩ := x
      rcases r with (_ | v) | _ | _ | _
      · exact this (ended_val _)
      · obtain ⟨w, rfl, e | e⟩ := callHook_cases' D (.clone v) s1 fun s => (s, (.val (.ok (Y.clone v)) : Res (Except σ.E σ.V)))
        · simp only [e]; exact hw _ _ (this (ended_val _))
        · simp only [e]; exact hw _ _ (this (ended_val _))
      · exact this (ended_panic _)
      · exact absurd rfl he.1
      · exact absurd rfl he.2

/-- The conditions for `J` to be preserved by operations with the hooks `D`, too. -/
structure HooksPreserve (Y : Sys σ) (J : St σ → Prop) (D : Hooks σ) : Prop where
  bld : ∀ n, Preserves Y J (getAH Y D n) → BuildPreserves Y J (buildH Y D (getAH Y D n))
  world : ∀ s h, J s → J { s with w := (D s.w h).1 }

theorem HooksPreserve.world' {J : St σ → Prop} {D : Hooks σ} (h : HooksPreserve Y J D) {w : σ.W}
    (hw : HookWorld D s.w w) (hj : J s) : J { s with w := w } := by
  rcases hw with rfl | ⟨k, rfl⟩
  · exact hj
  · exact h.world _ _ hj

theorem getAH_preserves {J : St σ → Prop} {D : Hooks σ} (h : HooksPreserve Y J D) (n : Nat) :
    Preserves Y J (getAH Y D n) ∧ BuildPreserves Y J (buildNH Y D n) := by
  induction n with
  | zero =>
    have h0 : BuildPreserves Y J (buildNH Y D 0) := fun p s _ _ _ _ he => absurd rfl he.2
    exact ⟨getByH_preserves h.world (getAH_ok Y D 0).2 h0, h0⟩
  | succ n ih =>
    have h1 : BuildPreserves Y J (buildNH Y D (n + 1)) := h.bld n ih.1
    exact ⟨getByH_preserves h.world (getAH_ok Y D (n + 1)).2 h1, h1⟩

/-- What must be checked for a single build with hooks. -/
theorem buildH_preserves {J : St σ → Prop} {D : Hooks σ} {n : Nat} {p : Promise σ} {L : Promise σ → Prop}
    (ho : (Y.code p.b).only L) (hp : Preserves Y J (getAH Y D n))
    (hw : ∀ s w, J s → J { s with w := w })
    (hinit : ∀ s, Inv Y s → s.live p = true → J s → (ensureDyn Y p s).2.ended → J (ensureDyn Y p s).1)
    (hcall : ∀ s, Running Y p (entered p s) → J s → J (entered p s))
    (hs : ∀ s s', Running Y p s → OwnStep Y L p s s' → J s → J s')
    (hend : ∀ s s' v w, Running Y p s → Running Y p s' →
      runProgH Y D (getAH Y D n) p (Y.code p.b) s = (s', .val (.ok v)) → J s' →
      J (finish p ({ s' with w := w }, .val (.ok v))).1)
    (hi : Inv Y s) (hj : J s) (hl : s.live p = true) (ha : s.c.artifacts[p.id]? = none)
    (he : (buildH Y D (getAH Y D n) p s).2.ended) : J (buildH Y D (getAH Y D n) p s).1 := by
  have h1 := hinit s hi hl hj
  rcases buildH_cases D (getAH Y D n) hi hl ha with ⟨s1, e1, e2⟩ | ⟨s1, e1, e2⟩ | ⟨s1, d, e1, e2⟩
  · rw [e2]; rw [e1] at h1; exact h1 (ended_panic _)
  · rw [e2] at he; exact absurd rfl he.1
  · rw [e1] at h1
    have h1 := h1 (ended_val _)
    rw [e2] at he ⊢
    obtain ⟨hr, _, _, _⟩ := ensureDyn_running hi hl ha e1
    obtain ⟨w, e | e⟩ := callHook_cases D (.handle p) s1 fun s =>
      finishH D p (runProgH Y D (getAH Y D n) p (Y.code p.b) (entered p s))
    · rw [e]; exact hw _ w h1
    rw [e] at he ⊢
    have hr : Running Y p (entered p { s1 with w := w }) := hr.micro (.world w)
    have h2 := hcall { s1 with w := w } hr (hw _ w h1)
    have h3 := runProgH_preserves D (getAH_ok Y D n).1 hp hs (Y.code p.b) ho hr h2
    have h4 := (runProgH_ran D (getAH_ok Y D n).1 (Y.code p.b) hr.inv hr.known hr.dyn hr.pend).1
    have h5 := hend (entered p { s1 with w := w })
    generalize runProgH Y D (getAH Y D n) p (Y.code p.b) (entered p { s1 with w := w }) = x at he h3 h4 h5 ⊢
    obtain ⟨s', r⟩ := x
    rcases r with (e | v) | k | _ | _
    · exact h3 (ended_val _)
    · simp only [finishH]
      obtain ⟨w', e | e⟩ := callHook_cases D (.report (.built p v)) s' (storeH D p v)
      · rw [e]; exact hw _ _ (h3 (ended_val _))
      · obtain ⟨w2, _, e1, _⟩ := storeH_finish D p v { s' with w := w' }
        rw [e, e1]; exact h5 s' v w2 hr (hr.micros h4.micros) rfl (h3 (ended_val _))
    · exact h3 (ended_panic _)
    · exact absurd rfl he.1
    · exact absurd rfl he.2

theorem execH_preserves {J : St σ → Prop} {A : Op σ → Prop} {D : Hooks σ} (h : OpsPreserve Y J A)
    (hH : HooksPreserve Y J D) (hi : Inv Y s) (n : Nat) (ord : HashOrder) (op : Op σ) (hA : A op)
    (hl : ∀ p, op.promise? = some p → s.live p = true)
    (hg : (execH Y D n ord s op).2.goesOn) (hj : J s) : J (execH Y D n ord s op).1 := by
  have hpg := getAH_preserves hH n
  cases hdeep : op.deep with
  | false =>
    obtain ⟨w, h0, h1, h2⟩ := execH_shallow' (Y := Y) (s := s) D n ord op hdeep
    have hg' : (exec Y n ord s op).2.goesOn := by
      rcases h2 with h2 | ⟨_, a, h2⟩
      · rw [← h2]; exact hg
      · rw [h2]; trivial
    rw [h1]
    exact hH.world' h0 (exec_preserves h hi n ord op hA hl hg' hj)
  | true =>
    cases op with
    | get how p =>
      refine hpg.1 how p s hi hj ?_
      simp only [execH] at hg
      generalize (getAH Y D n how p s).2 = r at hg
      cases r with
      | val => exact ended_val _
      | panic => exact ended_panic _
      | stuck => exact hg.elim
      | overflow => exact hg.elim
    | getMut p f =>
      exact getMutWrite_preserves h hi (getAH_ok Y D n).2 hpg.2 (fun _ _ h => buildNH_known D h) ord hA
        (hl p rfl) hg hj
    | dynStateMut p f =>
      have hl := hl p rfl
      obtain ⟨c', he, hd⟩ := invalidate_spec hi ord p
      have i1 := hi.invalidated hd
      have j1 := h.rest _ _ hi (.inval p c' hd) hj
      simp only [execH, dynStateMutH, he, callHook] at hg ⊢
      have j1' := hH.world _ (.report (.invalidate p)) j1
      simp only at j1'
      split
      · next w hw => rw [hw] at j1'; exact j1'
      · next w hw =>
        rw [hw] at hg j1'
        have i1 := i1.micro (.world w)
        have j1 := j1'
        have hen := ensureDyn_ran i1 (p := p) hl
        have j2 := h.init p _ i1 hl j1
        have hnone : c'.artifacts[p.id]? = none := hd.art_none _ .refl
        simp only at hg hen j2 ⊢
        generalize ensureDyn Y p { s with c := c'.emit (.invalidate p), w := w } = x at hen hg j2
        obtain ⟨s1, r⟩ := x
        obtain ⟨hr, hk, ha, hdv⟩ := hen
        cases r with
        | val d =>
          simp only at hg ⊢
          split
          · next ht =>
            have hm := hdv d rfl
            refine h.set p f s1 d hA (hr.inv i1) hk ?_ hm ht (j2 (ended_val _))
            simp only at ha
            rw [ha]
            exact hnone
          · next ht => rw [if_neg ht] at hg; exact hg.elim
        | panic k => exact j2 (ended_panic _)
        | stuck => exact hg.elim
        | overflow => exact hg.elim
    | _ => cases hdeep

/-- An invariant of all operations, with and without hooks. -/
theorem Reachable.preserved {J : St σ → Prop} (h : OpsPreserve Y J fun _ => True) (hH : ∀ D, HooksPreserve Y J D)
    (hnew : ∀ w, J (St.new w)) (hr : Reachable Y s) : J s := by
  induction hr with
  | new w => exact hnew w
  | step n ord op hs hg ih => exact step_preserves h hs.inv n ord op trivial hg ih
  | @hooked s D n ord op hs hg ih =>
    rcases stepH_cases (Y := Y) (s := s) D n ord op with ⟨hl, e⟩ | e
    · rw [e] at hg ⊢; exact execH_preserves h (hH D) hs.inv n ord op trivial hl hg ih
    · rw [e]; exact ih

/-- The states reachable by operations in `A`, with hooks (doctor, `Debug`, `Clone`) in `H`. -/
inductive ReachableBy (Y : Sys σ) (A : Op σ → Prop) (H : Hooks σ → Prop) : St σ → Prop
  | new (w : σ.W) : ReachableBy Y A H (St.new w)
  | step {s : St σ} (n : Nat) (ord : HashOrder) (op : Op σ) : ReachableBy Y A H s → A op →
      (step Y n ord s op).2.goesOn → ReachableBy Y A H (step Y n ord s op).1
  | hooked {s : St σ} (D : Hooks σ) (n : Nat) (ord : HashOrder) (op : Op σ) : ReachableBy Y A H s → A op → H D →
      (stepH Y D n ord s op).2.goesOn → ReachableBy Y A H (stepH Y D n ord s op).1

theorem ReachableBy.reachable {A : Op σ → Prop} {H : Hooks σ → Prop} (h : ReachableBy Y A H s) : Reachable Y s := by
  induction h with
  | new w => exact .new w
  | step n ord op _ _ hg ih => exact .step n ord op ih hg
  | hooked D n ord op _ _ _ hg ih => exact .hooked D n ord op ih hg

theorem ReachableBy.preserved {J : St σ → Prop} {A : Op σ → Prop} {H : Hooks σ → Prop} (h : OpsPreserve Y J A)
    (hH : ∀ D, H D → HooksPreserve Y J D) (hnew : ∀ w, J (St.new w)) (hr : ReachableBy Y A H s) : J s := by
  induction hr with
  | new w => exact hnew w
  | step n ord op hs hA hg ih => exact step_preserves h hs.reachable.inv n ord op hA hg ih
  | @hooked s D n ord op hs hA hD hg ih =>
    rcases stepH_cases (Y := Y) (s := s) D n ord op with ⟨hl, e⟩ | e
    · rw [e] at hg ⊢; exact execH_preserves h (hH D hD) hs.reachable.inv n ord op hA hl hg ih
    · rw [e]; exact ih

end Daab
