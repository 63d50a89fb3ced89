import Verif.PureH

/-!
# Properties C28, C29: caching is transparent for pure builders
-/

open Std

namespace Daab

variable {σ : Sig} {Y : Sys σ} {s : St σ}

/-- `op` gives mutable access to artifacts (feature `unstable`). -/
def Op.mutates : Op σ → Prop
  | .getMut .. | .lookupMut .. => True
  | _ => False

/-- The states reachable without mutable access to artifacts, whatever the hooks (doctor, `Debug`,
`Clone`) did. -/
inductive ReachablePlain (Y : Sys σ) : St σ → Prop
  | new (w : σ.W) : ReachablePlain Y (St.new w)
  | step {s : St σ} (n : Nat) (ord : HashOrder) (op : Op σ) : ReachablePlain Y s → ¬ op.mutates →
      (step Y n ord s op).2.goesOn → ReachablePlain Y (step Y n ord s op).1
  | hooked {s : St σ} (D : Hooks σ) (n : Nat) (ord : HashOrder) (op : Op σ) : ReachablePlain Y s →
      ¬ op.mutates → (stepH Y D n ord s op).2.goesOn → ReachablePlain Y (stepH Y D n ord s op).1

theorem ReachablePlain.reachable (h : ReachablePlain Y s) : Reachable Y s := by
  induction h with
  | new w => exact .new w
  | step n ord op _ _ hg ih => exact .step n ord op ih hg
  | hooked D n ord op _ _ hg ih => exact .hooked D n ord op ih hg

/-! ## The invariant holds -/

/-- What is left after the builders in `P` were dropped, provided dropping is closed under use. -/
theorem Sound.dropped (hY : PureSys Y) (h : Sound Y s) {s' : St σ} {P : Id → Prop}
    (hart : ∀ (a : Id) v, s'.c.artifacts[a]? = some v → s.c.artifacts[a]? = some v ∧ ¬ P a)
    (hP : ∀ u d, Dep s.c u d → P d → P u)
    (hk : ∀ (a : Id) b, s.c.known[a]? = some b → ¬ P a → s'.c.known[a]? = some b)
    (hk' : ∀ (a : Id) b, s'.c.known[a]? = some b → ¬ P a → s.c.known[a]? = some b)
    (hd : ∀ a : Id, ¬ P a → s'.c.dynStates[a]? = s.c.dynStates[a]?)
    (hdep : ∀ u d, Dep s.c u d → ¬ P u → Dep s'.c u d) : Sound Y s' := by
  intro p v hkp hv
  obtain ⟨h1, h2⟩ := hart _ _ hv
  refine (h p v (hk' _ _ hkp h2) h1).transport fun x hx hreach => ?_
  have hnx : ¬ P x.id := by
    intro hPx
    apply h2
    clear hx
    generalize x.id = a at hreach hPx
    induction hreach with
    | refl => exact hPx
    | tail _ h ih => exact ih (hP _ _ h hPx)
  exact ⟨hk _ _ hx hnx, stateOf_same hY x (hd _ hnx), fun d hd => hdep _ _ hd hnx⟩

theorem hit_closed {dep : Id → Id → Prop} {a u d : Id} (h : dep u d) (hh : Hit dep a d) : Hit dep a u :=
  Relation.ReflTransGen.head h hh

theorem Sound.same (hY : PureSys Y) (h : Sound Y s) {s' : St σ} (hc : s'.c = s.c) : Sound Y s' := by
  intro p v hk hv
  rw [hc] at hk hv
  exact (h p v hk hv).transport fun x hx _ =>
    ⟨by rw [hc]; exact hx, stateOf_same hY x (by rw [hc]), fun d hd => by rw [hc]; exact hd⟩

theorem Sound.empty {s' : St σ} (h : s'.c.artifacts = ∅) : Sound Y s' := by
  intro p v _ hv
  rw [h] at hv
  simp at hv

theorem Sound.invalidated (hY : PureSys Y) (h : Sound Y s) {a : Id} {c' : Cache σ}
    {e : Event σ} (hd : Dropped (Hit (Dep s.c) a) s.c c') : Sound Y { s with c := c'.emit e } := by
  refine h.dropped hY (P := Hit (Dep s.c) a) ?_ (fun u d h1 h2 => hit_closed h1 h2) ?_ ?_ ?_ ?_
  · intro x v hv
    exact (hd.art_iff x v).1 hv
  · intro x b hb _; simp only [Cache.emit, hd.known]; exact hb
  · intro x b hb _; simpa only [Cache.emit, hd.known] using hb
  · intro x _; simp only [Cache.emit, hd.dynStates]
  · intro u d h1 h2; exact (hd.dep u d).2 ⟨h1, h2⟩

/-- Handing out the dynamic state of `p`, which has no artifact and is used by nobody, for writing. -/
theorem Sound.setDyn (hY : PureSys Y) (s1 : Sound Y s) (hi1 : Inv Y s) {p : Promise σ} {f : σ.S → σ.S}
    (hl1 : s.live p = true) (hnone : s.c.artifacts[p.id]? = none) (hnd : ∀ u, ¬ Dep s.c u p.id) :
    Sound Y (show St σ × Res σ.S from match ensureDyn Y p s with
      | (s, .val d) =>
        if Y.stTy (f d) = Y.sty p.b then
          (s.onCache fun c =>
            { c with dynStates := c.dynStates.insert p.id (f d) }.emit (.setDyn p (f d)), .val d)
        else (s, .stuck)
      | r => r).1 := by
  obtain ⟨hg, ha, _⟩ := ensureDyn_grows hY hi1 hl1
  have hran := (ensureDyn_ran hi1 hl1 (Y := Y)).1
  have hi2 := hran.inv hi1
  have s2 := s1.grows hi1 hg ha
  have hdepE : ∀ u d, Dep (ensureDyn Y p s).1.c u d ↔ Dep s.c u d := by
    intro u d
    unfold ensureDyn
    simp only [St.onCache]
    repeat' split
    all_goals simp [Dep, Cache.emit]
  generalize ensureDyn Y p s = x at hg ha hi2 s2 hdepE
  obtain ⟨sx, r⟩ := x
  cases r with
  | val d =>
    simp only
    split
    · refine s2.dropped hY (P := (· = p.id)) ?_ ?_ ?_ ?_ ?_ ?_
      · intro x v hv
        refine ⟨hv, ?_⟩
        rintro rfl
        simp only [St.onCache, Cache.emit] at hv
        simp only at ha
        rw [ha] at hv
        rw [hnone] at hv
        cases hv
      · rintro u d' h1 rfl
        exact absurd ((hdepE u p.id).1 h1) (hnd u)
      · intro x b hb _; exact hb
      · intro x b hb _; exact hb
      · intro x hx
        simp only [St.onCache, Cache.emit]
        grind
      · intro u d' h1 _; exact h1
    · exact s2
  | _ => exact s2

theorem step_sound (hY : PureSys Y) (h : Sound Y s) (hi : Inv Y s) (n : Nat) (ord : HashOrder)
    (op : Op σ) (hop : ¬ op.mutates) : Sound Y (step Y n ord s op).1 := by
  have hlive : ∀ p, op.promise? = some p → s.live p = false → Sound Y (step Y n ord s op).1 := by
    intro p hp hl
    simp only [step, hp, hl]
    exact h
  cases op with
  | get how p =>
    cases hl : s.live p with
    | false => exact hlive p rfl hl
    | true => rw [step_live rfl hl]; exact (getA_sound hY n how p s hi h).1
  | getMut p f => exact absurd trivial hop
  | lookupMut p f => exact absurd trivial hop
  | lookup how p =>
    cases hl : s.live p with
    | false => exact hlive p rfl hl
    | true => rw [step_live rfl hl]; exact h
  | dynState p =>
    cases hl : s.live p with
    | false => exact hlive p rfl hl
    | true =>
      rw [step_live rfl hl]
      obtain ⟨hg, ha, _⟩ := ensureDyn_grows hY hi hl
      exact h.grows hi hg ha
  | getDynState p =>
    cases hl : s.live p with
    | false => exact hlive p rfl hl
    | true => rw [step_live rfl hl]; exact h
  | isKnown p =>
    cases hl : s.live p with
    | false => exact hlive p rfl hl
    | true => rw [step_live rfl hl]; exact h
  | numKnown => exact h
  | invalidate p =>
    cases hl : s.live p with
    | false => exact hlive p rfl hl
    | true =>
      rw [step_live rfl hl]
      obtain ⟨c', he, hd⟩ := invalidate_spec hi ord p
      simp only [exec, he]
      exact h.invalidated hY hd
  | purge p =>
    cases hl : s.live p with
    | false => exact hlive p rfl hl
    | true =>
      rw [step_live rfl hl]
      obtain ⟨c', cF, he, hd, rfl⟩ := purge_spec hi ord p
      simp only [exec, he]
      refine h.dropped hY (P := Hit (Dep s.c) p.id) ?_ (fun u d h1 h2 => hit_closed h1 h2) ?_ ?_ ?_ ?_
      · intro x v hv
        exact (hd.art_iff x v).1 hv
      · intro x b hb hn
        have : x ≠ p.id := by rintro rfl; exact hn .refl
        grind
      · intro x b hb hn
        grind
      · intro x hn
        have : x ≠ p.id := by rintro rfl; exact hn .refl
        grind
      · intro u d h1 h2; exact (hd.dep u d).2 ⟨h1, h2⟩
  | dynStateMut p f =>
    cases hl : s.live p with
    | false => exact hlive p rfl hl
    | true =>
      rw [step_live rfl hl]
      obtain ⟨c', he, hd⟩ := invalidate_spec hi ord p
      simp only [exec, dynStateMut, he]
      exact (h.invalidated hY (e := .invalidate p) hd).setDyn hY (hi.invalidated hd) hl (hd.art_none _ .refl)
        fun u hu => ((hd.dep u p.id).1 hu).2 (.single ((hd.dep u p.id).1 hu).1)
  | clearArtifacts => exact .empty rfl
  | clearAll => exact .empty rfl
  | gc =>
    rcases gc_spec hi ord with ⟨e, _⟩ | ⟨_, c', e, hsw, _⟩
    · simp only [step, Op.promise?, exec, e]; exact h
    · simp only [step, Op.promise?, exec, e]
      refine h.dropped hY (P := Garbage s) ?_ ?_ ?_ ?_ ?_ ?_
      · intro x v hv
        by_cases hx : Garbage s x
        · rw [hsw.art_none x hx] at hv; cases hv
        · rw [hsw.art_keep x hx] at hv; exact ⟨hv, hx⟩
      · rintro u d hu ⟨_, _, _, hno⟩
        exact absurd hu (hno u)
      · intro x b hb hx; rw [hsw.known_keep x hx]; exact hb
      · intro x b hb hx; rw [hsw.known_keep x hx] at hb; exact hb
      · intro x hx; exact hsw.dyn_keep x hx
      · intro u d h1 h2; exact (hsw.dep u d).2 ⟨h1, h2⟩
  | alloc p =>
    simp only [step, Op.promise?, exec]
    cases ha : allocB p s with
    | none => exact h
    | some s' => exact h.same hY (allocB_c ha)
  | free a => exact h.same hY rfl
  | world f => exact h.same hY rfl

theorem stepH_sound (hY : PureSys Y) (h : Sound Y s) (hi : Inv Y s) (D : Hooks σ) (n : Nat) (ord : HashOrder)
    (op : Op σ) (hop : ¬ op.mutates) : Sound Y (stepH Y D n ord s op).1 := by
  rcases stepH_cases (Y := Y) (s := s) D n ord op with ⟨hl, e⟩ | e
  · rw [e]
    cases hdeep : op.deep with
    | false =>
      obtain ⟨w, h1, _⟩ := execH_shallow (Y := Y) (s := s) D n ord op hdeep
      have e2 : step Y n ord s op = exec Y n ord s op := by
        cases hp : op.promise? with
        | none => simp only [step, hp]
        | some p => exact step_live hp (hl p hp)
      rw [h1, ← e2]
      exact (step_sound hY h hi n ord op hop).same hY rfl
    | true =>
      cases op with
      | get how p => exact (getAH_sound hY D n how p s hi h).1
      | getMut p f => exact absurd trivial hop
      | dynStateMut p f =>
        have hl := hl p rfl
        obtain ⟨c', he, hd⟩ := invalidate_spec hi ord p
        have s1 := h.invalidated hY (e := .invalidate p) hd
        have i1 := hi.invalidated hd
        simp only [execH, dynStateMutH, he]
        simp only [callHook]
        split
        · exact s1.same hY rfl
        · next w _ =>
          refine Sound.setDyn (p := p) (f := f) hY (s1.same hY (s' := { s with c := c'.emit (.invalidate p), w := w }) rfl)
            (i1.micro (.world w)) hl (hd.art_none _ .refl)
            fun u hu => ((hd.dep u p.id).1 hu).2 (.single ((hd.dep u p.id).1 hu).1)
      | _ => cases hdeep
  · rw [e]; exact h

theorem ReachablePlain.sound (hY : PureSys Y) (h : ReachablePlain Y s) : Sound Y s := by
  induction h with
  | new w => exact .empty rfl
  | step n ord op h hop _ ih => exact step_sound hY ih h.reachable.inv n ord op hop
  | hooked D n ord op h hop _ ih => exact stepH_sound hY ih h.reachable.inv D n ord op hop

/-! ## C28, soundness -/

/-- `stateOf` is what the public `dyn_state` returns. -/
theorem stateOf_dynState (hY : PureSys Y) (h : Reachable Y s) {p : Promise σ} (hl : s.live p = true)
    {n : Nat} {ord : HashOrder} {d : σ.S} (hd : (step Y n ord s (.dynState p)).2 = .val (.state d)) :
    stateOf Y s p = some d := by
  rw [step_live rfl hl] at hd
  simp only [exec] at hd
  have := (ensureDyn_grows hY h.inv hl).2.2
  generalize (ensureDyn Y p s).2 = r at hd this
  cases r <;> simp only [Res.map] at hd <;> cases hd
  exact this d rfl

/-- **C28** In a system of pure builders, after any history (without mutable access to artifacts),
whatever `get(p)` returns, artifact or error, is what recursively building everything from scratch,
without any cache, with the current dynamic states, returns. -/
theorem C28_get_is_from_scratch (hY : PureSys Y) (h : ReachablePlain Y s) {p : Promise σ}
    {how : Access} {n : Nat} {ord : HashOrder} {r : Except σ.E σ.V}
    (hr : (step Y n ord s (.get how p)).2 = .val (.art r)) :
    ∃ r0, Scratch Y (stateOf Y s) p r0 ∧ r = seenEx Y how r0 := by
  cases hl : s.live p with
  | false => simp [step, Op.promise?, hl] at hr
  | true =>
    rw [step_live rfl hl] at hr
    simp only [exec] at hr
    obtain ⟨_, hg, hv⟩ := getA_sound hY n how p s h.reachable.inv (h.sound hY)
    generalize getA Y n how p s = x at hr hg hv
    obtain ⟨s', r'⟩ := x
    cases r' <;> simp only [Res.map] at hr <;> cases hr
    obtain ⟨r0, rfl, j⟩ := hv r rfl
    exact ⟨r0, j.scratch hg, rfl⟩

/-- **C28** The same with a doctor, `Debug` and `Clone` implementations that act on the outside world and
panic as they like: if `get(p)` returns at all, it returns what building from scratch returns. -/
theorem C28_any_hooks_get_is_from_scratch (hY : PureSys Y) (h : ReachablePlain Y s) (D : Hooks σ) {p : Promise σ}
    {how : Access} {n : Nat} {ord : HashOrder} {r : Except σ.E σ.V}
    (hr : (stepH Y D n ord s (.get how p)).2 = .val (.art r)) :
    ∃ r0, Scratch Y (stateOf Y s) p r0 ∧ r = seenEx Y how r0 := by
  rcases stepH_cases (Y := Y) (s := s) D n ord (.get how p) with ⟨_, e⟩ | e
  · rw [e] at hr
    simp only [execH] at hr
    obtain ⟨_, hg, hv⟩ := getAH_sound hY D n how p s h.reachable.inv (h.sound hY)
    generalize getAH Y D n how p s = x at hr hg hv
    obtain ⟨s', r'⟩ := x
    cases r' <;> simp only [Res.map] at hr <;> cases hr
    obtain ⟨r0, rfl, j⟩ := hv r rfl
    exact ⟨r0, j.scratch hg, rfl⟩
  · rw [e] at hr; cases hr

/-- **C28** The same for `lookup`: an artifact in the cache is never outdated. -/
theorem C28_lookup_is_from_scratch (hY : PureSys Y) (h : ReachablePlain Y s) {p : Promise σ}
    {how : Access} {n : Nat} {ord : HashOrder} {v : σ.V}
    (hr : (step Y n ord s (.lookup how p)).2 = .val (.optArt (some v))) :
    ∃ v0, Scratch Y (stateOf Y s) p (.ok v0) ∧ v = seen Y how v0 := by
  cases hl : s.live p with
  | false => simp [step, Op.promise?, hl] at hr
  | true =>
    have hi := h.reachable.inv
    rw [step_live rfl hl] at hr
    simp only [exec, lookupBy_eq hi _ hl, Res.map] at hr
    cases ha : s.c.artifacts[p.id]? with
    | none => rw [ha] at hr; simp at hr
    | some v0 =>
      rw [ha] at hr
      obtain ⟨b, hb⟩ := hi.art_known ha
      rw [hi.heapKnown _ _ _ hb (live_iff.1 hl)] at hb
      refine ⟨v0, (h.sound hY p v0 hb ha).scratch (.refl s), ?_⟩
      simpa [eq_comm] using hr

/-- Building from scratch has at most one result. -/
theorem Scratch.det (hY : PureSys Y) {st : Promise σ → Option σ.S} {p : Promise σ}
    {r r' : Except σ.E σ.V} (h : Scratch Y st p r) (h' : Scratch Y st p r') : r = r' :=
  h.2.det hY (hY.code _) h'.2

/-! ## C28, C29, completeness -/

/-- All artifacts the code returns satisfy `P`. -/
def Prog.returns (P : σ.V → Prop) : Prog σ → Prop
  | .ret (.ok v) => P v
  | .ret (.error _) => True
  | .panic => True
  | .resolve _ _ k => ∀ r, (k r).returns P
  | .myState _ k => ∀ d, (k d).returns P
  | .world _ k => ∀ w, (k w).returns P
  | .alloc _ k => k.returns P
  | .free _ k => k.returns P

/-- Builders and their initial dynamic states are well-typed, as Rust's type checker ensures. -/
structure WellTyped (Y : Sys σ) : Prop where
  code : ∀ b, (Y.code b).returns fun v => Y.artTy v = Y.vty b
  init : ∀ b w d, (Y.init b w).2 = some d → Y.stTy d = Y.sty b

/-- A live builder keeps everything it resolves alive (it owns its promises). -/
def Owning (Y : Sys σ) (s : St σ) : Prop :=
  ∀ p, s.live p = true → (Y.code p.b).only fun q => s.live q = true

theorem ensureDyn_val (hT : WellTyped Y) (hi : Inv Y s) {p : Promise σ} (hl : s.live p = true) {d : σ.S}
    (hd : stateOf Y s p = some d) : (ensureDyn Y p s).2 = .val d := by
  have hi1 := hi.micro (.known p hl)
  have hk := hi.live_known hl
  unfold ensureDyn
  unfold stateOf at hd
  simp only
  have hds : (s.onCache (makeKnown p)).c.dynStates[p.id]? = s.c.dynStates[p.id]? := by
    simp [St.onCache]
  cases hx : s.c.dynStates[p.id]? with
  | some d' =>
    rw [hx] at hd hds
    cases hd
    simp only [hds, hi1.dynTy _ _ _ hds hk, if_true]
  | none =>
    rw [hx] at hd hds
    simp only [hds]
    have ht := hT.init _ _ _ hd
    rw [show (s.onCache (makeKnown p)).w = s.w from rfl]
    generalize Y.init p.b s.w = y at hd
    obtain ⟨w, o⟩ := y
    simp only at hd
    subst hd
    simp only [ht, if_true]

theorem live_compat (hi : Inv Y s) {q : Promise σ} (hl : s.live q = true) : Compat s q :=
  fun _ hb => hi.heapKnown _ _ _ hb (live_iff.1 hl)

/-- The state agrees with `H` about what is alive and with `st` about dynamic states. -/
structure Agrees (Y : Sys σ) (H : Promise σ → Prop) (st : Promise σ → Option σ.S) (s : St σ) : Prop where
  inv : Inv Y s
  sound : Sound Y s
  live : ∀ q, H q → s.live q = true
  closed : ∀ q, H q → (Y.code q.b).only H
  state : ∀ q, H q → stateOf Y s q = st q

theorem Agrees.grows {H : Promise σ → Prop} {st : Promise σ → Option σ.S} (h : Agrees Y H st s)
    {s' : St σ} (hi : Inv Y s') (hs : Sound Y s') (hg : Grows Y s s') : Agrees Y H st s' := by
  have hlive : ∀ q, H q → s'.live q = true := fun q hq => by rw [hg.live]; exact h.live q hq
  refine ⟨hi, hs, hlive, h.closed, fun q hq => ?_⟩
  rw [hg.state q (live_compat hi (hlive q hq))]
  exact h.state q hq

theorem getA_complete_step (hY : PureSys Y) (hT : WellTyped Y) {H : Promise σ → Prop}
    {st : Promise σ → Option σ.S} {R : Promise σ → Promise σ → Prop} {q : Promise σ}
    {r1 : Except σ.E σ.V} {d : σ.S} {n : Nat} (hq : H q) (hd : st q = some d)
    (h1 : ScratchCode Y st R q (Y.code q.b) r1)
    (ih : ∀ s, Running Y q s → Agrees Y H st s →
      (runProg Y (getA Y n) q (Y.code q.b) s).2 = .val r1)
    (how : Access) (ha : Agrees Y H st s) :
    (getA Y (n + 1) how q s).2 = .val (seenEx Y how r1) := by
  have hl := ha.live q hq
  cases hx : s.c.artifacts[q.id]? with
  | some v =>
    rw [getA_hit _ _ ha.inv hl hx]
    obtain ⟨b, hb⟩ := ha.inv.art_known hx
    rw [ha.inv.heapKnown _ _ _ hb (live_iff.1 hl)] at hb
    have j := (ha.sound q v hb hx).code.restrict ha.closed (ha.closed q hq)
    have j2 : ScratchCode Y st (fun _ _ => True) q (Y.code q.b) (.ok v) := by
      refine j.transport fun x hx => ⟨?_, fun _ _ => trivial⟩
      cases hx with
      | refl => exact (ha.state _ hq).symm
      | tail _ h => exact (ha.state _ h.2).symm
    rw [h1.det hY (hY.code _) j2]
    rfl
  | none =>
    rw [getA_miss _ _ ha.inv hl hx]
    simp only [buildN]
    have hev := ensureDyn_val hT ha.inv hl ((ha.state q hq).trans hd)
    obtain ⟨hg1, ha1, _⟩ := ensureDyn_grows hY ha.inv hl
    rcases build_cases (getA Y n) ha.inv hl hx with ⟨s1, e1, _⟩ | ⟨s1, e1, _⟩ | ⟨s1, d', e1, e2⟩
    · rw [e1] at hev; cases hev
    · rw [e1] at hev; cases hev
    · rw [e2, finish_res]
      rw [e1] at hg1 ha1
      obtain ⟨r1', m1, a1, d1⟩ := ensureDyn_running ha.inv hl hx e1
      have g1 : Grows Y s (entered q s1) := ⟨hg1.known, hg1.state, hg1.dep, hg1.heap, hg1.back⟩
      rw [ih _ r1' (ha.grows r1'.inv (ha.sound.grows ha.inv g1 a1) g1)]
      cases r1 <;> rfl

theorem runProg_complete (hY : PureSys Y) (hT : WellTyped Y) {H : Promise σ → Prop}
    {st : Promise σ → Option σ.S} {R : Promise σ → Promise σ → Prop} {p : Promise σ} {prog : Prog σ}
    {r : Except σ.E σ.V} (h : ScratchCode Y st R p prog r) (hp : prog.pure) (hH : H p)
    (ho : prog.only H) (ht : prog.returns fun v => Y.artTy v = Y.vty p.b) :
    ∃ N, ∀ n, N ≤ n → ∀ s, Running Y p s → Agrees Y H st s →
      (runProg Y (getA Y n) p prog s).2 = .val r := by
  induction h with
  | @ret p r =>
    refine ⟨0, fun n _ s _ _ => ?_⟩
    cases r with
    | error e => rfl
    | ok v =>
      have ht' : Y.artTy v = Y.vty p.b := ht
      simp [runProg, ht']
  | @resolve p q how k d r1 r _ hd h1 h2 ih1 ih2 =>
    by_cases hcl : (Y.code q.b).only H
    · obtain ⟨N1, h3⟩ := ih1 (hY.code _) ho.1 hcl (hT.code _)
      obtain ⟨N2, h4⟩ := ih2 (hp _) hH (ho.2 _) (ht _)
      refine ⟨max (N1 + 1) N2, fun n hn s hr ha => ?_⟩
      have hl := ha.live q ho.1
      rw [runProg_resolve hr hl]
      have r1 := hr.micros (hr.tracked hl)
      have g1 : Grows Y s (tracked p q s) := tracked_grows hr hl
      have s1 : Sound Y (tracked p q s) := ha.sound.grows hr.inv g1
        (by simp only [tracked, St.onCache, addEdge, Cache.emit, makeKnown_artifacts])
      have a1 := ha.grows r1.inv s1 g1
      obtain ⟨m, rfl⟩ : ∃ m, n = m + 1 := ⟨n - 1, by omega⟩
      have he := getA_complete_step hY hT ho.1 hd h1 (fun s => h3 m (by omega) s) how a1
      obtain ⟨s2, g2, _⟩ := getA_sound hY (m + 1) how q _ r1.inv s1
      have m2 := ((getA_ok Y (m + 1)).1.ran how q _ r1.inv).micros
      have r2 := r1.micros m2
      generalize hx : getA Y (m + 1) how q (tracked p q s) = x at he s2 g2 m2 r2
      obtain ⟨sx, rx⟩ := x
      simp only at he
      subst he
      exact h4 (m + 1) (by omega) sx r2 (a1.grows r2.inv s2 g2)
    · exact ⟨0, fun n _ s _ ha => absurd (ha.closed q ho.1) hcl⟩
  | @myState p f k d r hd _ ih =>
    obtain ⟨N, h3⟩ := ih (hp.2 _) hH (ho _) (ht _)
    refine ⟨N, fun n hn s hr ha => ?_⟩
    obtain ⟨d', hd', ⟨hne, _⟩ | ⟨hm, e⟩⟩ := runProg_myState_cases hr (getA Y n) f k
    · rw [hp.1] at hne
      exact absurd (ha.inv.dynTy _ _ _ hd' hr.known) hne
    · have : d' = d := by
        have h5 := (ha.state p hH).trans hd
        rw [stateOf, hd'] at h5
        cases h5
        rfl
      subst this
      rw [e]
      have g1 : Grows Y s (wrote p (f d') s) := by
        refine ⟨fun _ _ h => h, fun q _ => ?_, fun u d h => h, rfl, fun _ _ h => .inl h⟩
        apply stateOf_same hY
        simp only [wrote, Cache.emit, hp.1]
        grind
      have r1 := hr.micro hm
      exact h3 n hn _ r1 (ha.grows r1.inv (ha.sound.grows hr.inv g1 rfl) g1)
  | @world p f k w r _ ih =>
    obtain ⟨N, h3⟩ := ih (hp.2 _) hH (ho _) (ht _)
    refine ⟨N, fun n hn s hr ha => ?_⟩
    have m : Micro Y s { s with w := f s.w } := .world _
    have r1 := hr.micro m
    have g1 : Grows Y s { s with w := f s.w } :=
      ⟨fun _ _ h => h, fun q _ => stateOf_same hY q rfl, fun u d h => h, rfl, fun _ _ h => .inl h⟩
    rw [runProg, hp.1 s.w w]
    exact h3 n hn _ r1 (ha.grows r1.inv (ha.sound.grows hr.inv g1 rfl) g1)

/-- `get(p)` returns `r` if there is enough stack space. -/
def GetReturns (Y : Sys σ) (s : St σ) (how : Access) (p : Promise σ) (r : Except σ.E σ.V) : Prop :=
  ∃ N, ∀ n, N ≤ n → ∀ ord, (step Y n ord s (.get how p)).2 = .val (.art r)

theorem get_complete (hY : PureSys Y) (hT : WellTyped Y) {H : Promise σ → Prop}
    {st : Promise σ → Option σ.S} {p : Promise σ} {r0 : Except σ.E σ.V} (hH : H p)
    (hs : Scratch Y st p r0) (ha : Agrees Y H st s) (how : Access) :
    GetReturns Y s how p (seenEx Y how r0) := by
  obtain ⟨⟨d, hd⟩, hc⟩ := hs
  obtain ⟨N, h3⟩ := runProg_complete hY hT hc (hY.code _) hH (ha.closed p hH) (hT.code _)
  refine ⟨N + 1, fun n hn ord => ?_⟩
  obtain ⟨m, rfl⟩ : ∃ m, n = m + 1 := ⟨n - 1, by omega⟩
  rw [step_live rfl (ha.live p hH)]
  simp only [exec]
  rw [getA_complete_step hY hT hH hd hc (fun s => h3 m (by omega) s) how ha]
  rfl

theorem agrees_self (hY : PureSys Y) (h : ReachablePlain Y s) (ho : Owning Y s) :
    Agrees Y (fun q => s.live q = true) (stateOf Y s) s :=
  ⟨h.reachable.inv, h.sound hY, fun _ h => h, ho, fun _ _ => rfl⟩

/-- **C28** Conversely: whatever building from scratch with the current dynamic states returns, `get(p)`
returns it, too, after any history, given enough stack space. -/
theorem C28_from_scratch_is_get (hY : PureSys Y) (hT : WellTyped Y) (h : ReachablePlain Y s)
    (ho : Owning Y s) {p : Promise σ} (hl : s.live p = true) {r0 : Except σ.E σ.V}
    (hs : Scratch Y (stateOf Y s) p r0) (how : Access) : GetReturns Y s how p (seenEx Y how r0) :=
  get_complete hY hT hl hs (agrees_self hY h ho) how

/-- **C29** In a system of pure builders, let `s1` and `s2` be two caches after any two histories, with
the same dynamic states of the builders referenced in `s1`, which are also referenced in `s2`.  If
`get(p)` returns `r` in `s1`, then `get(p)` returns `r` in `s2`, given enough stack space. -/
theorem C29_history_independence (hY : PureSys Y) (hT : WellTyped Y) {s1 s2 : St σ}
    (h1 : ReachablePlain Y s1) (h2 : ReachablePlain Y s2) (ho : Owning Y s1)
    (hlive : ∀ q, s1.live q = true → s2.live q = true)
    (hstate : ∀ q, s1.live q = true → stateOf Y s2 q = stateOf Y s1 q)
    {p : Promise σ} {how : Access} {n : Nat} {ord : HashOrder} {r : Except σ.E σ.V}
    (hr : (step Y n ord s1 (.get how p)).2 = .val (.art r)) : GetReturns Y s2 how p r := by
  obtain ⟨r0, hs, rfl⟩ := C28_get_is_from_scratch hY h1 hr
  have hl : s1.live p = true := by
    cases hl : s1.live p with
    | true => rfl
    | false => simp [step, Op.promise?, hl] at hr
  refine get_complete (H := fun q => s1.live q = true) hY hT hl hs ?_ how
  exact ⟨h2.reachable.inv, h2.sound hY, hlive, ho, hstate⟩

/-- **C29** In particular the results of two `get(p)` that return, with any stack space, are equal. -/
theorem C29_same_result (hY : PureSys Y) (hT : WellTyped Y) {s1 s2 : St σ}
    (h1 : ReachablePlain Y s1) (h2 : ReachablePlain Y s2) (ho : Owning Y s1)
    (hlive : ∀ q, s1.live q = true → s2.live q = true)
    (hstate : ∀ q, s1.live q = true → stateOf Y s2 q = stateOf Y s1 q)
    {p : Promise σ} {how : Access} {n n' : Nat} {ord ord' : HashOrder} {r r' : Except σ.E σ.V}
    (hr : (step Y n ord s1 (.get how p)).2 = .val (.art r))
    (hr' : (step Y n' ord' s2 (.get how p)).2 = .val (.art r')) : r = r' := by
  obtain ⟨N, hN⟩ := C29_history_independence hY hT h1 h2 ho hlive hstate hr
  have e1 := hN (max N n') (Nat.le_max_left _ _) ord'
  rw [C26_more_stack p how ord' (Nat.le_max_right N n') (by rw [hr']; simp), hr'] at e1
  cases e1
  rfl

/-- **C28** Caching is transparent: `get(p)` returns `r` iff it does after throwing away all artifacts
(both given enough stack space). -/
theorem C28_clear_artifacts_transparent (hY : PureSys Y) (hT : WellTyped Y) (h : ReachablePlain Y s)
    (ho : Owning Y s) (p : Promise σ) (how : Access) (r : Except σ.E σ.V) (n : Nat) (ord : HashOrder) :
    GetReturns Y s how p r ↔ GetReturns Y (step Y n ord s .clearArtifacts).1 how p r := by
  have h2 : ReachablePlain Y (step Y n ord s .clearArtifacts).1 :=
    .step n ord _ h (by simp [Op.mutates]) trivial
  have hst : ∀ q, stateOf Y (step Y n ord s .clearArtifacts).1 q = stateOf Y s q := fun q => rfl
  constructor
  · rintro ⟨N, hN⟩
    exact C29_history_independence hY hT h h2 ho (fun _ h => h) (fun q _ => hst q) (hN N (Nat.le_refl _) ord)
  · rintro ⟨N, hN⟩
    exact C29_history_independence hY hT h2 h ho (fun _ h => h) (fun q _ => (hst q).symm)
      (hN N (Nat.le_refl _) ord)

/-! ## Non-vacuity -/

theorem ReachablePlain.runOps {n : Nat} {ord : HashOrder} (ops : List (Op σ))
    (hops : ∀ op ∈ ops, ¬ op.mutates)
    (h : ReachablePlain Y s) (hg : goOn Y n ord ops s = true) : ReachablePlain Y (runOps Y n ord ops s) := by
  induction ops generalizing s with
  | nil => exact h
  | cons op ops ih =>
    simp only [goOn, Bool.and_eq_true, decide_eq_true_eq] at hg
    exact ih (fun o ho => hops o (List.mem_cons_of_mem _ ho))
      (.step n ord op h (hops op List.mem_cons_self) hg.1) hg.2

namespace Demo

theorem dagY_pure : PureSys dagY := by
  refine ⟨fun b => ?_, fun b w w' => rfl⟩
  cases b with
  | zero => exact ⟨fun d => rfl, fun d => trivial⟩
  | succ b => intro r; cases r with
    | error e => trivial
    | ok v => intro r; cases r <;> trivial

theorem dagY_wellTyped : WellTyped dagY := by
  refine ⟨fun b => ?_, fun b w d _ => rfl⟩
  cases b with
  | zero => exact fun d => rfl
  | succ b => intro r; cases r with
    | error e => trivial
    | ok v => intro r; cases r with
      | error e => trivial
      | ok v => rfl

/-- Some operations after allocating 0, 1 and 2. -/
def dagAfter (ops : List (Op sig)) : St sig :=
  runOps dagY 3 ord ([0, 1, 2].map (.alloc <| P ·) ++ ops) (St.new 0)

theorem dag_owning {s : St sig}
    (hs : s.heap = (((∅ : AMap Nat).insert 10 0).insert 11 1).insert 12 2) : Owning dagY s := by
  have hP : ∀ b, b < 3 → s.live (P b) = true := by
    intro b hb
    simp only [St.live, hs]
    have : b = 0 ∨ b = 1 ∨ b = 2 := by omega
    rcases this with rfl | rfl | rfl <;> rfl
  rintro ⟨a, b⟩ hl
  have hb : (b : Nat) < 3 := by
    simp only [St.live, hs, beq_iff_eq] at hl
    grind
  cases b with
  | zero => exact fun d => trivial
  | succ b =>
    have hb : b + 1 < 3 := hb
    refine ⟨hP b (by omega), fun r => ?_⟩
    cases r with
    | error e => trivial
    | ok v =>
      refine ⟨hP b (by omega), fun r => ?_⟩
      cases r <;> trivial

/-- The hypotheses of C28 and C29 are met by two different histories that lead to the same dynamic
states: in the first, builder 1 was built with another state of builder 0 in between, in the second
nothing was ever built.  Both answer 24. -/
example :
    let s1 := dagAfter [.get .bin (P 1), .dynStateMut (P 0) (fun _ => 5), .get .ref (P 1)]
    let s2 := dagAfter [.dynStateMut (P 0) (fun _ => 5), .dynState (P 1)]
    PureSys dagY ∧ WellTyped dagY ∧ ReachablePlain dagY s1 ∧ ReachablePlain dagY s2 ∧
    Owning dagY s1 ∧ stateOf dagY s1 (P 0) = some 5 ∧ stateOf dagY s2 (P 0) = some 5 ∧
    (step dagY 3 ord s1 (.get .bin (P 2))).2 = .val (.art (.ok 24)) ∧
    (step dagY 3 ord s2 (.get .bin (P 2))).2 = .val (.art (.ok 24)) := by
  refine ⟨dagY_pure, dagY_wellTyped, ?_, ?_, dag_owning rfl, rfl, rfl, rfl, rfl⟩
  · exact ReachablePlain.runOps _ (by simp [Op.mutates]) (ReachablePlain.new (Y := dagY) (0 : Nat)) (by decide)
  · exact ReachablePlain.runOps _ (by simp [Op.mutates]) (ReachablePlain.new (Y := dagY) (0 : Nat)) (by decide)

/-- The hypotheses of `C28_get_is_from_scratch`, `C28_lookup_is_from_scratch`, `C28_from_scratch_is_get` and
`C28_clear_artifacts_transparent`: builder 2 asked in the first of these states. -/
example : let s := dagAfter [.get .bin (P 1), .dynStateMut (P 0) (fun _ => 5), .get .ref (P 1)]
    (∃ r0, Scratch dagY (stateOf dagY s) (P 2) r0 ∧ .ok 24 = seenEx dagY .cloned r0) ∧
    (∃ v0, Scratch dagY (stateOf dagY s) (P 1) (.ok v0) ∧ 12 = seen dagY .bin v0) ∧
    GetReturns dagY s .bin (P 2) (.ok 24) ∧
    GetReturns dagY (step dagY 3 ord s .clearArtifacts).1 .bin (P 2) (.ok 24) := by
  intro s
  have hp : ReachablePlain dagY s :=
    ReachablePlain.runOps _ (by simp [Op.mutates]) (ReachablePlain.new (Y := dagY) (0 : Nat)) (by decide)
  obtain ⟨r0, h1, h2⟩ := C28_get_is_from_scratch dagY_pure hp (p := P 2) (how := .bin) (n := 3) (ord := ord)
    (r := .ok (24 : Nat)) rfl
  have h3 := C28_from_scratch_is_get dagY_pure dagY_wellTyped hp (dag_owning rfl) (p := P 2) rfl h1 .bin
  rw [← h2] at h3
  exact ⟨C28_get_is_from_scratch dagY_pure hp (n := 3) (ord := ord) rfl,
    C28_lookup_is_from_scratch dagY_pure hp (n := 3) (ord := ord) rfl, h3,
    (C28_clear_artifacts_transparent dagY_pure dagY_wellTyped hp (dag_owning rfl) (P 2) .bin _ 3 ord).1 h3⟩

/-- `C29_history_independence` and `C29_same_result` for those two histories. -/
example :
    let s1 := dagAfter [.get .bin (P 1), .dynStateMut (P 0) (fun _ => 5), .get .ref (P 1)]
    let s2 := dagAfter [.dynStateMut (P 0) (fun _ => 5), .dynState (P 1)]
    (step dagY 3 ord s1 (.get .bin (P 2))).2 = .val (.art (.ok 24)) ∧ GetReturns dagY s2 .bin (P 2) (.ok 24) := by
  intro s1 s2
  have h1 : ReachablePlain dagY s1 :=
    ReachablePlain.runOps _ (by simp [Op.mutates]) (ReachablePlain.new (Y := dagY) (0 : Nat)) (by decide)
  have h2 : ReachablePlain dagY s2 :=
    ReachablePlain.runOps _ (by simp [Op.mutates]) (ReachablePlain.new (Y := dagY) (0 : Nat)) (by decide)
  have hheap : s1.heap = (((∅ : AMap Nat).insert 10 0).insert 11 1).insert 12 2 := rfl
  have hq : ∀ q, s1.live q = true → q = P 0 ∨ q = P 1 ∨ q = P 2 := by
    rintro ⟨a, b⟩ hl
    simp only [St.live, hheap, beq_iff_eq] at hl
    unfold P
    grind
  have hl : ∀ q, s1.live q = true → s2.live q = true := by
    intro q hl
    rcases hq q hl with rfl | rfl | rfl <;> rfl
  have hs : ∀ q, s1.live q = true → stateOf dagY s2 q = stateOf dagY s1 q := by
    intro q hl
    rcases hq q hl with rfl | rfl | rfl <;> rfl
  have : ∀ r, (step dagY 3 ord s2 (.get .bin (P 2))).2 = .val (.art r) → .ok 24 = r := fun r =>
    C29_same_result dagY_pure dagY_wellTyped h1 h2 (dag_owning rfl) hl hs (n := 3) (ord := ord) rfl
  refine ⟨rfl, ?_⟩
  exact C29_history_independence dagY_pure dagY_wellTyped h1 h2 (dag_owning rfl) hl hs (n := 3) (ord := ord) rfl

/-- A doctor that panics when it is told that something was built. -/
def strict : Hooks sig
  | w, .report (.built _ _) => (w, true)
  | w, _ => (w, false)

/-- A doctor that counts what it is told. -/
def tallying : Hooks sig
  | w, .report _ => (w + 1, false)
  | w, _ => (w, false)

set_option smartUnfolding false in
/-- `C28_any_hooks_get_is_from_scratch`: builder 1 is asked with one doctor, which panics, and then with another. -/
example : let s := (stepH dagY strict 3 ord (dagAfter []) (.get .bin (P 1))).1
    (stepH dagY strict 3 ord (dagAfter []) (.get .bin (P 1))).2 = .panic .user ∧
    ∃ r0, Scratch dagY (stateOf dagY s) (P 1) r0 ∧ .ok 2 = seenEx dagY .bin r0 := by
  have hp : ReachablePlain dagY (dagAfter []) :=
    ReachablePlain.runOps _ (by simp [Op.mutates]) (ReachablePlain.new (Y := dagY) (0 : Nat)) (by decide)
  have e : (stepH dagY strict 3 ord (dagAfter []) (.get .bin (P 1))).2 = .panic .user := rfl
  have e2 : (stepH dagY tallying 3 ord (stepH dagY strict 3 ord (dagAfter []) (.get .bin (P 1))).1
      (.get .bin (P 1))).2 = .val (.art (.ok (2 : Nat))) := rfl
  exact ⟨e, C28_any_hooks_get_is_from_scratch dagY_pure (.hooked strict 3 ord (.get .bin (P 1)) hp id
    (by rw [e]; exact (by decide : Panic.user ≠ Panic.noCounterpart))) tallying e2⟩

end Demo

end Daab
