import Verif.Trans

/-! # The three phases of an operation: drop, build, write -/

open Std

namespace Daab

variable {σ : Sig}

/-- Events that tell of no builder activity. -/
def Event.quiet : Event σ → Prop
  | .resolve .. | .built .. | .call _ | .initDyn .. => False
  | _ => True

/-- First phase: artifacts and dependencies are dropped.  If `u` loses a dependency, it loses its
artifact, too. -/
structure Cut (s sa : St σ) : Prop where
  dep : ∀ u d, Dep s.c u d → Dep sa.c u d ∨ sa.c.artifacts[u]? = none
  art : ∀ u : Id, s.c.artifacts[u]? = none → sa.c.artifacts[u]? = none
  log : ∃ evs, sa.c.log = evs ++ s.c.log ∧ ∀ e ∈ evs, e.quiet

theorem Cut.refl (s : St σ) : Cut s s :=
  ⟨fun _ _ h => Or.inl h, fun _ h => h, [], rfl, by simp⟩

theorem Cut.trans {s s1 s2 : St σ} (h1 : Cut s s1) (h2 : Cut s1 s2) : Cut s s2 := by
  refine ⟨?_, fun u h => h2.art u (h1.art u h), ?_⟩
  · intro u d h
    rcases h1.dep u d h with h | h
    · exact h2.dep u d h
    · exact Or.inr (h2.art u h)
  · obtain ⟨e1, h3, h4⟩ := h1.log
    obtain ⟨e2, h5, h6⟩ := h2.log
    refine ⟨e2 ++ e1, by rw [h5, h3, List.append_assoc], ?_⟩
    intro e he
    rcases List.mem_append.1 he with h | h
    · exact h6 e h
    · exact h4 e h

theorem Cut.of_eq {s sa : St σ} (hd : ∀ u d, Dep sa.c u d ↔ Dep s.c u d)
    (ha : ∀ u : Id, s.c.artifacts[u]? = none → sa.c.artifacts[u]? = none)
    (hl : ∃ evs, sa.c.log = evs ++ s.c.log ∧ ∀ e ∈ evs, e.quiet) : Cut s sa :=
  ⟨fun u d h => Or.inl ((hd u d).2 h), ha, hl⟩

/-- Second phase: building. -/
structure Mid (Y : Sys σ) (s s' : St σ) : Prop where
  micros : Micros Y s s'
  artLocal : ∀ a : Id, s'.c.artifacts[a]? = s.c.artifacts[a]? ∨
    ∃ p : Promise σ, p.id = a ∧ Since s s' (.call p)

theorem Mid.refl (Y : Sys σ) (s : St σ) : Mid Y s s := ⟨.refl, fun _ => Or.inl rfl⟩

/-- Third phase: a write. -/
structure Fin (s s' : St σ) : Prop where
  dep : ∀ u d, Dep s'.c u d ↔ Dep s.c u d
  art : ∀ u : Id, s'.c.artifacts[u]? = none ↔ s.c.artifacts[u]? = none
  log : ∃ evs, s'.c.log = evs ++ s.c.log ∧ ∀ e ∈ evs, e.quiet

theorem Fin.refl (s : St σ) : Fin s s := ⟨fun _ _ => Iff.rfl, fun _ => Iff.rfl, [], rfl, by simp⟩

/-- An operation consists of the three phases. -/
def Shape (Y : Sys σ) (s s' : St σ) : Prop := ∃ sa sb, Inv Y sa ∧ Cut s sa ∧ Mid Y sa sb ∧ Fin sb s'

theorem Ran.mid {Y : Sys σ} {ex : Id → Prop} {s : St σ} {α : Type} {x : St σ × Res α}
    (h : Ran Y ex s x) : Mid Y s x.1 := ⟨h.micros, h.artLocal⟩

theorem Shape.ofMid {Y : Sys σ} {s s' : St σ} (hi : Inv Y s) (h : Mid Y s s') : Shape Y s s' :=
  ⟨s, s', hi, Cut.refl s, h, Fin.refl s'⟩

theorem Shape.ofCut {Y : Sys σ} {s s' : St σ} (hi : Inv Y s') (h : Cut s s') : Shape Y s s' :=
  ⟨s', s', hi, h, Mid.refl Y s', Fin.refl s'⟩

theorem Dropped.cut {s : St σ} {a : Id} {c' : Cache σ} (h : Dropped (Hit (Dep s.c) a) s.c c')
    {sa : St σ} (h1 : sa.c.dependents = c'.dependents) (h2 : sa.c.artifacts = c'.artifacts)
    (hl : ∃ evs, sa.c.log = evs ++ s.c.log ∧ ∀ e ∈ evs, e.quiet) : Cut s sa := by
  have hdep : ∀ u d, Dep sa.c u d ↔ Dep c' u d := by intro u d; unfold Dep; rw [h1]
  refine ⟨?_, ?_, hl⟩
  · intro u d hud
    rw [hdep, h.dep, h2]
    by_cases hu : Hit (Dep s.c) a u
    · exact Or.inr (h.art_none u hu)
    · exact Or.inl ⟨hud, hu⟩
  · intro u hu
    rw [h2]
    by_cases hh : Hit (Dep s.c) a u
    · exact h.art_none u hh
    · rw [h.art_keep u hh]; exact hu

theorem invalidateDependents_cut {Y : Sys σ} {s : St σ} (hi : Inv Y s) {ord : HashOrder} {a : Id}
    {c' : Cache σ} (h : invalidateDependents Y ord a s.c = (c', .done)) :
    Inv Y { s with c := c' } ∧ Cut s { s with c := c' } := by
  rcases hi.invalidateDependents ord a with ⟨c1, h1, _⟩ | ⟨c1, h1, h2, h3, _, h4, h5, h6, h7, h8, _⟩
  · rw [h] at h1; cases h1
  · rw [h] at h1; cases h1
    have hn : ∀ u : Id, (c'.artifacts[u]? = none) ↔ ∀ v, c'.artifacts[u]? ≠ some v := by
      intro u; cases c'.artifacts[u]? <;> simp
    refine ⟨h3, ?_, ?_, [.mutDeps a], h8, by simp [Event.quiet]⟩
    · intro u d hud
      simp only [h7, hn]
      by_cases hu : StrictHit (Dep s.c) a u
      · exact Or.inr fun v hv => ((h6 u v).1 hv).2 hu
      · exact Or.inl ⟨hud, hu⟩
    · intro u hu
      simp only [hn]
      intro v hv
      have := ((h6 u v).1 hv).1
      rw [hu] at this
      cases this

theorem writeArt_fin {Y : Sys σ} {s : St σ} {p : Promise σ} {f : σ.V → σ.V} {v : σ.V}
    (hv : s.c.artifacts[p.id]? = some v) {c' : Cache σ}
    (h : writeArt Y p f v s.c = some c') : Fin s { s with c := c' } := by
  unfold writeArt at h
  split at h
  · cases h
    refine ⟨fun _ _ => Iff.rfl, ?_, [.write p.id (f v)], rfl, by simp [Event.quiet]⟩
    intro u
    simp only [Cache.emit]
    grind
  · cases h

theorem getMutWrite_shape {Y : Sys σ} {s : St σ} (hi : Inv Y s) {bld : BuildFn σ} (hbld : BuildOk Y bld)
    (ord : HashOrder) {p : Promise σ} (hl : s.live p = true) (f : σ.V → σ.V)
    (hg : (getMutWrite Y ord bld p f s).2 ≠ .panic .noCounterpart) :
    Shape Y s (getMutWrite Y ord bld p f s).1 := by
  unfold getMutWrite at hg ⊢
  rcases getMut_spec_of hi hbld ord hl with ⟨c', he, _⟩ | ⟨c1, h1, ⟨c2, v, _, h12, h2, hinv, he⟩ | ⟨h2, he⟩⟩
  · rw [he] at hg; exact absurd rfl hg
  · obtain ⟨i1, t1⟩ := invalidateDependents_cut hi h1
    obtain ⟨i2, t2'⟩ := invalidateDependents_cut i1 h12
    have t2 : Cut s { s with c := c2 } := t1.trans t2'
    rw [he]
    simp only
    cases hw : writeArt Y p f v c2 with
    | none => exact .ofCut i2 t2
    | some c' =>
      exact ⟨_, _, i2, t2, Mid.refl Y _, writeArt_fin (s := { s with c := c2 }) h2 hw⟩
  · obtain ⟨i1, t1⟩ := invalidateDependents_cut hi h1
    rw [he]
    have hb := hbld.ran p { s with c := c1 } i1 hl h2
    have hok := hbld.ok p { s with c := c1 } i1 hl h2
    generalize bld p { s with c := c1 } = x at hb hok
    obtain ⟨s', r⟩ := x
    have t2 : Shape Y s s' := ⟨_, _, i1, t1, hb.mid, Fin.refl _⟩
    rcases r with (_ | v) | _ | _ | _ <;> try exact t2
    simp only
    cases hw : writeArt Y p f v s'.c with
    | none => exact t2
    | some c' => exact ⟨_, _, i1, t1, hb.mid, writeArt_fin (hok v rfl).1 hw⟩

theorem exec_shape {Y : Sys σ} {s : St σ} (hi : Inv Y s) (n : Nat) (ord : HashOrder) (op : Op σ)
    (hl : ∀ p, op.promise? = some p → s.live p = true)
    (hg : (exec Y n ord s op).2 ≠ .panic .noCounterpart) : Shape Y s (exec Y n ord s op).1 := by
  have hend := (hi.exec n ord op hl).resolve_right hg
  cases op with
  | get how p => exact .ofMid hi ((getA_ok Y n).1.ran how p s hi).mid
  | getMut p f => exact getMutWrite_shape hi (getA_ok Y n).2 ord (hl p rfl) f hg
  | lookup how p => exact .ofMid hi (Mid.refl Y s)
  | lookupMut p f =>
    have hl := hl p rfl
    simp only [Daab.exec] at hg ⊢
    rcases lookupMut_spec hi ord hl with ⟨c', he, _⟩ | ⟨c1, he, h1⟩
    · rw [he] at hg; exact absurd rfl hg
    · obtain ⟨i1, t1⟩ := invalidateDependents_cut hi h1
      rw [he]
      cases ha : c1.artifacts[p.id]? with
      | none => exact .ofCut i1 t1
      | some v =>
        simp only
        cases hw : writeArt Y p f v c1 with
        | none => exact .ofCut i1 t1
        | some c' =>
          exact ⟨_, _, i1, t1, Mid.refl Y _, writeArt_fin (s := { s with c := c1 }) ha hw⟩
  | dynState p => exact .ofMid hi (ensureDyn_ran hi (hl p rfl)).1.mid
  | getDynState p => exact .ofMid hi (Mid.refl Y s)
  | dynStateMut p f =>
    have hl := hl p rfl
    simp only [Daab.exec]
    obtain ⟨c', he, hd⟩ := invalidate_spec hi ord p
    have hinv := hi.invalidated hd
    have hcut : Cut s { s with c := c'.emit (.invalidate p) } :=
      hd.cut rfl rfl ⟨[.invalidate p], by simp [Cache.emit, hd.log], by simp [Event.quiet]⟩
    unfold dynStateMut
    rw [he]
    simp only
    have hen := (ensureDyn_ran hinv (p := p) hl).1
    generalize ensureDyn Y p { s with c := c'.emit (.invalidate p) } = x at hen
    obtain ⟨s1, r⟩ := x
    have t2 : Shape Y s s1 := ⟨_, _, hinv, hcut, hen.mid, Fin.refl _⟩
    cases r with
    | val d =>
      simp only
      split
      · exact ⟨_, _, hinv, hcut, hen.mid, fun _ _ => Iff.rfl, fun _ => Iff.rfl,
          [.setDyn p (f d)], rfl, by simp [Event.quiet]⟩
      · exact t2
    | panic k => exact t2
    | stuck => exact t2
    | overflow => exact t2
  | isKnown p => exact .ofMid hi (Mid.refl Y s)
  | numKnown => exact .ofMid hi (Mid.refl Y s)
  | invalidate p =>
    obtain ⟨c', he, hd⟩ := invalidate_spec hi ord p
    simp only [Daab.exec, he] at hend ⊢
    exact .ofCut hend
      (hd.cut rfl rfl ⟨[.invalidate p], by simp [Cache.emit, hd.log], by simp [Event.quiet]⟩)
  | purge p =>
    obtain ⟨c', cF, he, hd, hF⟩ := purge_spec hi ord p
    subst hF
    simp only [Daab.exec, he] at hend ⊢
    exact .ofCut hend (hd.cut rfl rfl ⟨[.invalidate p, .purged p], rfl, by simp [Event.quiet]⟩)
  | clearArtifacts =>
    refine .ofCut hend ⟨fun u d _ => Or.inr ?_, fun u _ => ?_, [.clearArtifacts], rfl, by
      simp [Event.quiet]⟩ <;> simp [Daab.exec, St.onCache, Daab.clearArtifacts, Cache.emit]
  | clearAll =>
    refine .ofCut hend ⟨fun u d _ => Or.inr ?_, fun u _ => ?_, [.clear], rfl, by
      simp [Event.quiet]⟩ <;> simp [Daab.exec, St.onCache, Daab.clearAll, Cache.emit]
  | gc =>
    simp only [Daab.exec] at hend ⊢
    rcases gc_spec hi ord with ⟨h, _⟩ | ⟨_, c', h, h1, l, h6, h7⟩
    · rw [h]; exact .ofMid hi (Mid.refl Y s)
    · rw [h] at hend ⊢
      refine .ofCut hend ⟨?_, ?_, _, h7, ?_⟩
      · intro u d hud
        simp only [h1.dep]
        by_cases hu : Garbage s u
        · exact Or.inr (h1.art_none u hu)
        · exact Or.inl ⟨hud, hu⟩
      · intro u hu
        by_cases hg : Garbage s u
        · exact h1.art_none u hg
        · simp only [h1.art_keep u hg]; exact hu
      · intro e he
        obtain ⟨a, _, rfl⟩ := List.mem_map.1 he
        trivial
  | alloc p =>
    simp only [Daab.exec] at hend ⊢
    cases ha : allocB p s with
    | none => exact .ofMid hi (Mid.refl Y s)
    | some s' => exact .ofMid hi ⟨.single (.alloc p ha), fun a => Or.inl (by rw [allocB_c ha])⟩
  | free a => exact .ofMid hi ⟨.single (.free a), fun a => Or.inl rfl⟩
  | world f => exact .ofMid hi ⟨.single (.world _), fun a => Or.inl rfl⟩

theorem step_shape {Y : Sys σ} {s : St σ} (hi : Inv Y s) (n : Nat) (ord : HashOrder) (op : Op σ)
    (hg : (step Y n ord s op).2.goesOn) : Shape Y s (step Y n ord s op).1 := by
  have hno : ∀ r : Res (Ans σ), r.goesOn → r ≠ .panic .noCounterpart := by
    rintro r h rfl; exact h rfl
  unfold Daab.step at *
  cases hp : op.promise? with
  | none =>
    simp only [hp] at hg ⊢
    exact exec_shape hi n ord op (by intro p h; rw [hp] at h; cases h) (hno _ hg)
  | some p =>
    simp only [hp] at hg ⊢
    split
    · next hl =>
      simp only [hl, if_true] at hg
      exact exec_shape hi n ord op (by intro q h; rw [hp] at h; cases h; exact hl) (hno _ hg)
    · exact .ofMid hi (Mid.refl Y s)

/-- The outside world does not matter. -/
theorem Shape.world {Y : Sys σ} {s s' : St σ} (h : Shape Y s s') (w : σ.W) : Shape Y s { s' with w := w } := by
  obtain ⟨sa, sb, h1, h2, h3, h4⟩ := h
  exact ⟨sa, sb, h1, h2, h3, h4.dep, h4.art, h4.log⟩

/-- The same with hooks. -/
theorem execH_shape {Y : Sys σ} {s : St σ} (hi : Inv Y s) (D : Hooks σ) (n : Nat) (ord : HashOrder) (op : Op σ)
    (hl : ∀ p, op.promise? = some p → s.live p = true)
    (hg : (execH Y D n ord s op).2 ≠ .panic .noCounterpart) : Shape Y s (execH Y D n ord s op).1 := by
  cases hdeep : op.deep with
  | false =>
    obtain ⟨w, h1, h2⟩ := execH_shallow (Y := Y) (s := s) D n ord op hdeep
    have hg' : (exec Y n ord s op).2 ≠ .panic .noCounterpart := by
      rcases h2 with h2 | ⟨_, a, h2⟩
      · rw [← h2]; exact hg
      · rw [h2]; simp
    rw [h1]
    exact (exec_shape hi n ord op hl hg').world w
  | true =>
    cases op with
    | get how p => exact .ofMid hi ((getAH_ok Y D n).1 how p s hi).mid
    | getMut p f => exact getMutWrite_shape hi (getAH_ok Y D n).2 ord (hl p rfl) f hg
    | dynStateMut p f =>
      have hl := hl p rfl
      obtain ⟨c', he, hd⟩ := invalidate_spec hi ord p
      have hinv := hi.invalidated hd
      have hcut : Cut s { s with c := c'.emit (.invalidate p) } :=
        hd.cut rfl rfl ⟨[.invalidate p], by simp [Cache.emit, hd.log], by simp [Event.quiet]⟩
      simp only [execH, dynStateMutH, he, callHook]
      split
      · next w _ => exact (Shape.ofCut hinv hcut).world w
      · next w _ =>
        have hinv := hinv.micro (.world w)
        have hcut : Cut s { s with c := c'.emit (.invalidate p), w := w } := ⟨hcut.dep, hcut.art, hcut.log⟩
        have hen := (ensureDyn_ran hinv (p := p) hl).1
        simp only at hen ⊢
        generalize ensureDyn Y p { s with c := c'.emit (.invalidate p), w := w } = x at hen ⊢
        obtain ⟨s1, r⟩ := x
        have t2 : Shape Y s s1 := ⟨_, _, hinv, hcut, hen.mid, Fin.refl _⟩
        cases r with
        | val d =>
          simp only
          split
          · exact ⟨_, _, hinv, hcut, hen.mid, fun _ _ => Iff.rfl, fun _ => Iff.rfl,
              [.setDyn p (f d)], rfl, by simp [Event.quiet]⟩
          · exact t2
        | panic k => exact t2
        | stuck => exact t2
        | overflow => exact t2
    | _ => cases hdeep

theorem Went.shape {Y : Sys σ} {s s' : St σ} {op : Op σ} {r : Res (Ans σ)} (h : Went Y s op s' r)
    (hi : Inv Y s) (hg : r.goesOn) : Shape Y s s' := by
  cases h with
  | plain n ord => exact step_shape hi n ord op hg
  | hooked D n ord =>
    rcases stepH_cases (Y := Y) (s := s) D n ord op with ⟨hl, e⟩ | e
    · rw [e] at hg ⊢
      exact execH_shape hi D n ord op hl (by rintro h; rw [h] at hg; exact hg rfl)
    · rw [e] at hg; exact hg.elim

/-! ## Dependencies while building -/

theorem Micro.dep_mono {Y : Sys σ} {s s' : St σ} (h : Micro Y s s') (u d : Id) (hd : Dep s.c u d) :
    Dep s'.c u d := by
  cases h with
  | known p hl => unfold Dep; simp only [St.onCache, makeKnown_dependents]; exact hd
  | track p q _ _ => exact (addEdge_dep p q s.c u d).2 (Or.inl hd)
  | alloc q ha => rw [allocB_c ha]; exact hd
  | _ => exact hd

theorem Micros.dep_mono {Y : Sys σ} {s s' : St σ} (h : Micros Y s s') (u d : Id)
    (hd : Dep s.c u d) : Dep s'.c u d := by
  induction h with
  | refl => exact hd
  | tail _ hm ih => exact hm.dep_mono u d ih

theorem Since.cons {s s1 s2 : St σ} {e e' : Event σ} (hl : s2.c.log = e' :: s1.c.log)
    (h1 : s.c.log <:+ s1.c.log) (h : Since s s2 e) : e = e' ∨ Since s s1 e := by
  obtain ⟨new, h2, h3⟩ := h
  obtain ⟨m, hm⟩ := h1
  cases new with
  | nil =>
    rw [hl, ← hm] at h2
    have := congrArg List.length h2
    simp at this
    omega
  | cons x new =>
    rw [hl] at h2
    injection h2 with hx h2
    rcases List.mem_cons.1 h3 with h3 | h3
    · exact Or.inl (h3.trans hx.symm)
    · exact Or.inr ⟨new, h2, h3⟩

theorem Since.same {s s1 s2 : St σ} {e : Event σ} (hl : s2.c.log = s1.c.log) (h : Since s s2 e) :
    Since s s1 e := by
  obtain ⟨new, h2, h3⟩ := h
  exact ⟨new, hl ▸ h2, h3⟩

theorem since_refl {s : St σ} {e : Event σ} : ¬ Since s s e := by
  rintro ⟨new, h2, h3⟩
  have := congrArg List.length h2
  simp at this
  subst this
  cases h3

/-- What was resolved while building is recorded. -/
theorem Micros.resolved {Y : Sys σ} {s s' : St σ} (h : Micros Y s s') {u d : Promise σ}
    (hs : Since s s' (.resolve u d)) : Dep s'.c u.id d.id := by
  induction h with
  | refl => exact absurd hs since_refl
  | tail h1 hm ih =>
    have hmono := Micros.log_mono h1
    have hstep : ∀ {s2 : St σ}, Micro Y _ s2 → Since s _ (.resolve u d) → Dep s2.c u.id d.id :=
      fun hm h => hm.dep_mono _ _ (ih h)
    cases hm with
    | known p hl => exact hstep (.known p hl) (hs.same (by simp [St.onCache]))
    | track p q h2 h3 h4 =>
      rcases hs.cons rfl hmono with h | h
      · cases h; exact (addEdge_dep _ _ _ _ _).2 (Or.inr ⟨rfl, rfl⟩)
      · exact hstep (.track p q h2 h3 h4) h
    | init p w d h2 h3 h4 h5 =>
      exact hstep (.init p w d h2 h3 h4 h5) ((hs.cons rfl hmono).resolve_left (by simp))
    | initPanic p w h2 h3 h4 =>
      exact hstep (.initPanic p w h2 h3 h4) ((hs.cons rfl hmono).resolve_left (by simp))
    | setDyn p d h2 h3 h4 =>
      exact hstep (.setDyn p d h2 h3 h4) ((hs.cons rfl hmono).resolve_left (by simp))
    | world w => exact hstep (.world w) (hs.same rfl)
    | alloc q ha => exact hstep (.alloc q ha) (hs.same (by rw [allocB_c ha]))
    | free a => exact hstep (.free a) (hs.same rfl)
    | call p h2 h3 h4 =>
      exact hstep (.call p h2 h3 h4) ((hs.cons rfl hmono).resolve_left (by simp))
    | built p v h2 h3 h4 h5 =>
      exact hstep (.built p v h2 h3 h4 h5) ((hs.cons rfl hmono).resolve_left (by simp))

/-- New artifacts come with a `built` event. -/
theorem Micros.art_built {Y : Sys σ} {s s' : St σ} (h : Micros Y s s') {a : Id} :
    s'.c.artifacts[a]? = s.c.artifacts[a]? ∨
      ∃ p v, p.id = a ∧ s'.c.artifacts[a]? = some v ∧ Since s s' (.built p v) := by
  induction h with
  | refl => exact Or.inl rfl
  | @tail b c h1 hm ih =>
    have hmono := Micros.log_mono h1
    have hkeep : ∀ {s2 : St σ}, Micro Y b s2 → s2.c.artifacts = b.c.artifacts →
        s2.c.artifacts[a]? = s.c.artifacts[a]? ∨
        ∃ p v, p.id = a ∧ s2.c.artifacts[a]? = some v ∧ Since s s2 (.built p v) := by
      intro s2 hm he
      rw [he]
      rcases ih with h | ⟨p, v, h2, h3, h4⟩
      · exact Or.inl h
      · exact Or.inr ⟨p, v, h2, h3, h4.of_suffix hm.log_mono⟩
    cases hm with
    | known p hl => exact hkeep (.known p hl) (by simp [St.onCache])
    | track p q h2 h3 h4 => exact hkeep (.track p q h2 h3 h4) rfl
    | init p w d h2 h3 h4 h5 => exact hkeep (.init p w d h2 h3 h4 h5) rfl
    | initPanic p w h2 h3 h4 => exact hkeep (.initPanic p w h2 h3 h4) rfl
    | setDyn p d h2 h3 h4 => exact hkeep (.setDyn p d h2 h3 h4) rfl
    | world w => exact hkeep (.world w) rfl
    | alloc q ha => exact hkeep (.alloc q ha) (by rw [allocB_c ha])
    | free a => exact hkeep (.free a) rfl
    | call p h2 h3 h4 => exact hkeep (.call p h2 h3 h4) rfl
    | built p v h2 h3 h4 h5 =>
      by_cases hp : p.id = a
      · subst hp
        refine Or.inr ⟨p, v, rfl, by simp [St.onCache], ?_⟩
        obtain ⟨m, hm⟩ := hmono
        refine ⟨.built p v :: m, ?_, by simp⟩
        simp [St.onCache, Cache.emit, ← hm]
      · have he : (b.onCache fun c =>
            { c.emit (.built p v) with artifacts := c.artifacts.insert p.id v }).c.artifacts[a]? =
            b.c.artifacts[a]? := by
          simp only [St.onCache]
          grind
        rw [he]
        rcases ih with h | ⟨p', v', h2', h3', h4'⟩
        · exact Or.inl h
        · exact Or.inr ⟨p', v', h2', h3', h4'.of_suffix (List.suffix_cons _ _)⟩

end Daab
