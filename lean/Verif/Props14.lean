import Verif.Contracts
import Verif.Props2

/-!
# C48: contracts; C49: infallible builders
-/

open Std

namespace Daab

variable {σ : Sig} {Y : Sys σ} {s : St σ}

/-- **C48** Let `K` be any contract (on the artifacts, errors and dynamic states of each builder and on
the world) which each single builder keeps if it may rely on it.  Then in every history of a program
which keeps it, too, every answer of the cache is according to contract. -/
theorem C48_contracts {K : Contract σ} (hK : K.Kept Y) (h : UnderContract Y K s) {n : Nat}
    {ord : HashOrder} {op : Op σ} {r : Ans σ} (hr : (step Y n ord s op).2 = .val r) :
    K.answer Y op r := by
  have hh := h.holds hK
  have hre := h.reachable
  have hi := hre.inv
  have live : ∀ p, op.promise? = some p → s.live p = true := by
    intro p hp
    cases hl : s.live p with
    | true => rfl
    | false => simp [step, hp, hl] at hr
  cases op with
  | get how p =>
    have hl := live p rfl
    rw [step_live rfl hl] at hr
    simp only [exec] at hr
    have hk := ((buildN_keeps hK n).2 how p s hi hh).2
    generalize (getA Y n how p s).2 = x at hr hk
    rcases x with (e | v) | _ | _ | _ <;> cases hr
    · obtain ⟨r0, h1, h2⟩ := hk _ rfl
      cases r0 with
      | ok v => cases h2
      | error e' => cases h2; exact h1
    · obtain ⟨r0, h1, h2⟩ := hk _ rfl
      cases r0 with
      | ok v' => cases h2; exact ⟨v', rfl, h1⟩
      | error e => cases h2
  | getMut p f =>
    have hl := live p rfl
    rw [step_live rfl hl] at hr
    simp only [exec] at hr
    rcases getMut_spec hi n ord hl with ⟨c', he, _⟩ | ⟨c1, h1, ⟨c2, v, _, h12, h2, hinv, he⟩ | ⟨h2, he⟩⟩
    · rw [he] at hr; cases hr
    · obtain ⟨t1, i1⟩ := invalidateDependents_rest (A := Op.keeps K) hi h1
      have j1 := (holds_ops hK).rest _ _ hi t1 hh
      obtain ⟨t2, i2⟩ := invalidateDependents_rest (A := Op.keeps K) i1 h12
      have j2 := (holds_ops hK).rest _ _ i1 t2 j1
      rw [he] at hr
      simp only at hr
      cases hw : writeArt Y p f v c2 with
      | none => rw [hw] at hr; cases hr
      | some c' =>
        rw [hw] at hr
        cases hr
        exact j2.art _ _ _ (i2.live_art_known hl h2) h2
    · obtain ⟨t1, i1⟩ := invalidateDependents_rest (A := Op.keeps K) hi h1
      have j1 := (holds_ops hK).rest _ _ hi t1 hh
      rw [he] at hr
      have j2 := ((buildN_keeps hK n).1 p { s with c := c1 } i1 hl h2 j1).2
      generalize buildN Y n p { s with c := c1 } = x at hr j2
      obtain ⟨s', y⟩ := x
      rcases y with (_ | v) | k | _ | _
      · cases hr; exact j2 _ rfl
      · simp only at hr
        cases hw : writeArt Y p f v s'.c with
        | none => rw [hw] at hr; cases hr
        | some c' => rw [hw] at hr; cases hr; exact j2 _ rfl
      · cases hr
      · cases hr
      · cases hr
  | lookup how p =>
    have hl := live p rfl
    rw [(C18_lookups_pure hre hl n ord).1 how] at hr
    cases hr
    cases ha : s.c.artifacts[p.id]? with
    | none => exact trivial
    | some v => exact ⟨v, rfl, hh.art _ _ _ (hi.live_art_known hl ha) ha⟩
  | lookupMut p f =>
    have hl := live p rfl
    rw [step_live rfl hl] at hr
    simp only [exec] at hr
    rcases lookupMut_spec hi ord hl with ⟨c', he, _⟩ | ⟨c1, he, h1⟩
    · rw [he] at hr; cases hr
    · obtain ⟨t1, i1⟩ := invalidateDependents_rest (A := Op.keeps K) hi h1
      have j1 := (holds_ops hK).rest _ _ hi t1 hh
      rw [he] at hr
      cases ha : c1.artifacts[p.id]? with
      | none => rw [ha] at hr; cases hr; exact trivial
      | some v =>
        rw [ha] at hr
        simp only at hr
        cases hw : writeArt Y p f v c1 with
        | none => rw [hw] at hr; cases hr
        | some c' => rw [hw] at hr; cases hr; exact j1.art _ _ _ (i1.live_art_known hl ha) ha
  | dynState p =>
    have hl := live p rfl
    rw [step_live rfl hl] at hr
    simp only [exec] at hr
    have := (hh.ensureDyn hK hi hl).2
    generalize (ensureDyn Y p s).2 = x at hr this
    cases x <;> cases hr
    exact this _ rfl
  | getDynState p =>
    have hl := live p rfl
    rw [(C18_lookups_pure hre hl n ord).2.1] at hr
    cases hr
    cases ha : s.c.dynStates[p.id]? with
    | none => exact trivial
    | some d =>
      have hk := hi.live_known hl
      exact hh.state _ _ _ (makeKnown_dyn hi hk ((mem_getElem _ _).2 ⟨d, ha⟩)) ha
  | dynStateMut p f =>
    have hl := live p rfl
    generalize hs : step Y n ord s (.dynStateMut p f) = x at hr
    obtain ⟨s', y⟩ := x
    simp only at hr
    subst hr
    cases r with
    | state d =>
      rcases (C11_dyn_state_mut hre hs).1 with ⟨hd, _⟩ | ⟨_, hin⟩
      · have hk := hi.live_known hl
        exact hh.state _ _ _ (makeKnown_dyn hi hk ((mem_getElem _ _).2 ⟨d, hd⟩)) hd
      · have := (hK.init p.b s.w hh.world).2
        rw [hin] at this
        exact this d rfl
    | _ => exact trivial
  | isKnown p => exact trivial
  | numKnown => exact trivial
  | invalidate p => exact trivial
  | purge p => exact trivial
  | clearArtifacts => exact trivial
  | clearAll => exact trivial
  | gc => exact trivial
  | alloc p => exact trivial
  | free a => exact trivial
  | world f => exact trivial

/-- A contract the demo builders keep: 0, 1 and 2 produce even numbers, 3 produces 7 or the error 0, and
the dynamic state of 0 is even. -/
def Demo.K : Contract Demo.sig where
  art b v := match b with
    | 0 | 1 | 2 => v % 2 = 0
    | 3 => v = 7
    | _ => True
  err b e := match b with
    | 0 | 1 | 2 => False
    | 3 => e = 0
    | _ => True
  state b d := b = 0 → d % 2 = 0
  world _ := True

theorem Demo.K_kept : Demo.K.Kept Demo.Y := by
  constructor
  · intro b
    match b with
    | 0 => exact fun d hd => ⟨hd, hd rfl⟩
    | 1 =>
      refine ⟨fun (v : Nat) (hv : v % 2 = 0) => ?_, fun e he => he.elim⟩
      show (v + 100) % 2 = (0 : Nat)
      omega
    | 2 =>
      refine ⟨fun (v : Nat) (hv : v % 2 = 0) => ⟨fun (w : Nat) (hw : w % 2 = 0) => ?_,
        fun e he => he.elim⟩, fun e he => he.elim⟩
      show (v + w) % 2 = (0 : Nat)
      omega
    | 3 =>
      intro w _
      refine ⟨trivial, ?_⟩
      match w with
      | 0 => exact ⟨fun _ _ => rfl, fun _ _ => rfl⟩
      | w + 1 => rfl
    | 4 => exact ⟨fun _ _ => trivial, fun _ _ => trivial⟩
    | 5 =>
      intro w _
      refine ⟨trivial, ?_⟩
      match w with
      | 0 => trivial
      | w + 1 => trivial
    | 6 => exact ⟨fun _ _ => trivial, fun _ _ => trivial⟩
    | 7 => exact ⟨fun _ _ => trivial, fun _ _ => trivial⟩
    | 8 => exact ⟨fun _ _ => trivial, fun _ _ => trivial⟩
    | 9 =>
      intro w _
      refine ⟨trivial, ?_⟩
      match w with
      | 0 => exact ⟨fun _ _ => trivial, fun _ _ => trivial⟩
      | w + 1 => trivial
    | b + 10 => trivial
  · intro b w _
    refine ⟨trivial, ?_⟩
    intro d hd
    cases hd
    intro hb
    show (b : Nat) % 2 = 0
    rw [show b = (0 : Nat) from hb]

theorem UnderContract.runOps {K : Contract σ} {n : Nat} {ord : HashOrder} (ops : List (Op σ)) {s : St σ}
    (h : UnderContract Y K s) (hk : ∀ op ∈ ops, op.keeps K) (hg : goOn Y n ord ops s = true) :
    UnderContract Y K (runOps Y n ord ops s) := by
  induction ops generalizing s with
  | nil => exact h
  | cons op ops ih =>
    simp only [goOn, Bool.and_eq_true, decide_eq_true_eq] at hg
    exact ih (.step n ord op h (hk op (by simp)) hg.1) (fun o ho => hk o (by simp [ho])) hg.2

/-- The hypotheses are met by a history which changes the state of 0 (by an even number), builds, and
changes the artifact of 2: whatever `get(2)` then answers is even. -/
example {n : Nat} {ord : HashOrder} {v : Nat}
    (hr : (step Demo.Y n ord (Demo.after [.dynStateMut (Demo.P 0) (· + 4), .get .bin (Demo.P 2),
      .getMut (Demo.P 2) (· + 2)]) (.get .bin (Demo.P 2))).2 = .val (.art (.ok v))) : v % 2 = 0 := by
  have h : UnderContract Demo.Y Demo.K (Demo.after [.dynStateMut (Demo.P 0) (· + 4),
      .get .bin (Demo.P 2), .getMut (Demo.P 2) (· + 2)]) := by
    refine UnderContract.runOps _ (.new (σ := Demo.sig) (0 : Nat) trivial) ?_ (by decide)
    intro op hop
    simp only [List.mem_append] at hop
    rcases hop with hop | hop
    · simp only [Demo.allocs, List.mem_map] at hop
      obtain ⟨b, _, rfl⟩ := hop
      trivial
    · simp only [List.mem_cons, List.not_mem_nil, or_false] at hop
      rcases hop with rfl | rfl | rfl
      · intro (d : Nat) hd hb
        have : d % 2 = 0 := hd hb
        show (d + 4) % 2 = (0 : Nat)
        omega
      · trivial
      · intro (v : Nat) (hv : v % 2 = 0)
        show (v + 2) % 2 = (0 : Nat)
        omega
  obtain ⟨v', h1, h2⟩ := C48_contracts Demo.K_kept h hr
  have : v = v' := h1
  subst this
  exact h2

example : (step Demo.Y 9 Demo.ord (Demo.after [.dynStateMut (Demo.P 0) (· + 4), .get .bin (Demo.P 2),
      .getMut (Demo.P 2) (· + 2)]) (.get .bin (Demo.P 2))).2 = .val (.art (.ok 110)) := rfl

/-! ## Answers are results of the builder's own code -/

/-- `r` is a result the code may return, given suitable answers to what it resolves and reads. -/
inductive Prog.MayReturn : Prog σ → Except σ.E σ.V → Prop
  | ret (r) : MayReturn (.ret r) r
  | resolve {how q k x} (r) : MayReturn (k r) x → MayReturn (.resolve how q k) x
  | myState {f k x} (d) : MayReturn (k d) x → MayReturn (.myState f k) x
  | world {f k x} (w) : MayReturn (k w) x → MayReturn (.world f k) x
  | alloc {q k x} : MayReturn k x → MayReturn (.alloc q k) x
  | free {a k x} : MayReturn k x → MayReturn (.free a k) x

theorem Prog.keeps_of_mayReturn (Y : Sys σ) {K : Contract σ} {b : σ.B} (hs : ∀ d, K.state b d)
    (hw : ∀ w, K.world w) (c : Prog σ) (h : ∀ r, c.MayReturn r → K.result b r) : c.keeps Y K b := by
  induction c with
  | ret r => exact h r (.ret r)
  | panic => trivial
  | resolve how q k ih =>
    exact ⟨fun v _ => ih _ fun r hr => h r (.resolve _ hr), fun e _ => ih _ fun r hr => h r (.resolve _ hr)⟩
  | myState f k ih => exact fun d _ => ⟨hs _, ih _ fun r hr => h r (.myState _ hr)⟩
  | world f k ih => exact fun d _ => ⟨hw _, ih _ fun r hr => h r (.world _ hr)⟩
  | alloc q k ih => exact ih fun r hr => h r (.alloc hr)
  | free a k ih => exact ih fun r hr => h r (.free hr)

/-- The operation does not hand out mutable access to an artifact. -/
def Op.leavesArtifacts : Op σ → Prop
  | .getMut .. | .lookupMut .. => False
  | _ => True

/-- The histories in which nobody is given mutable access to an artifact. -/
inductive ArtifactsUntouched (Y : Sys σ) : St σ → Prop
  | new (w : σ.W) : ArtifactsUntouched Y (St.new w)
  | step {s : St σ} (n : Nat) (ord : HashOrder) (op : Op σ) : ArtifactsUntouched Y s →
      op.leavesArtifacts → (step Y n ord s op).2.goesOn → ArtifactsUntouched Y (step Y n ord s op).1
  | hooked {s : St σ} (D : Hooks σ) (n : Nat) (ord : HashOrder) (op : Op σ) : ArtifactsUntouched Y s →
      op.leavesArtifacts → (stepH Y D n ord s op).2.goesOn → ArtifactsUntouched Y (stepH Y D n ord s op).1

/-- **C03** An error returned by `get(p)` (or `get_mut(p)`) is one which the code of the builder of `p`
itself returns: never one the cache makes up, or one of another builder. -/
theorem C03_error_is_own (h : Reachable Y s) {n : Nat} {ord : HashOrder} {op : Op σ} {p : Promise σ}
    (hop : (∃ how, op = .get how p) ∨ ∃ f, op = .getMut p f) {e : σ.E}
    (hr : (step Y n ord s op).2 = .val (.art (.error e))) : (Y.code p.b).MayReturn (.error e) := by
  let K : Contract σ := ⟨fun _ _ => True, fun b e => (Y.code b).MayReturn (.error e), fun _ _ => True,
    fun _ => True⟩
  have hK : K.Kept Y := ⟨fun b => Prog.keeps_of_mayReturn Y (fun _ => trivial) (fun _ => trivial) _
    fun r hr => by cases r with
      | ok v => trivial
      | error e => exact hr, fun _ _ _ => ⟨trivial, fun _ _ => trivial⟩⟩
  have hu : UnderContract Y K s := by
    clear hr
    induction h with
    | new w => exact .new w trivial
    | step n ord op _ hg ih =>
      exact .step n ord op ih (by cases op <;> simp [Op.keeps, K]) hg
    | hooked D n ord op _ hg ih =>
      exact .hooked D n ord op ih (by cases op <;> simp [Op.keeps, K]) (fun _ _ _ => trivial) hg
  have := C48_contracts hK hu hr
  rcases hop with ⟨how, rfl⟩ | ⟨f, rfl⟩ <;> exact this

/-- The hypotheses are met: builder 6 fails. -/
example : (Demo.Y.code 6).MayReturn (.error (6 : Nat)) :=
  C03_error_is_own Demo.reach1 (Or.inl ⟨.bin, rfl⟩) (n := 9) (ord := Demo.ord) (p := Demo.P 6) rfl

/-- **C48** If nobody mutates artifacts in place, every artifact the cache hands out for `p` is one the
code of the builder of `p` returns. -/
theorem C48_artifact_is_own (h : ArtifactsUntouched Y s) {n : Nat} {ord : HashOrder} {how : Access}
    {p : Promise σ} {w : σ.V}
    (hr : (step Y n ord s (.get how p)).2 = .val (.art (.ok w)) ∨
      (step Y n ord s (.lookup how p)).2 = .val (.optArt (some w))) :
    ∃ v, (Y.code p.b).MayReturn (.ok v) ∧ w = seen Y how v := by
  let K : Contract σ := ⟨fun b v => (Y.code b).MayReturn (.ok v), fun _ _ => True, fun _ _ => True,
    fun _ => True⟩
  have hK : K.Kept Y := ⟨fun b => Prog.keeps_of_mayReturn Y (fun _ => trivial) (fun _ => trivial) _
    fun r hr => by cases r with
      | ok v => exact hr
      | error e => trivial, fun _ _ _ => ⟨trivial, fun _ _ => trivial⟩⟩
  have hu : UnderContract Y K s := by
    clear hr
    induction h with
    | new w => exact .new w trivial
    | step n ord op _ ho hg ih =>
      exact .step n ord op ih (by cases op <;> simp_all [Op.keeps, K, Op.leavesArtifacts]) hg
    | hooked D n ord op _ ho hg ih =>
      exact .hooked D n ord op ih (by cases op <;> simp_all [Op.keeps, K, Op.leavesArtifacts])
        (fun _ _ _ => trivial) hg
  rcases hr with hr | hr
  · obtain ⟨v, h1, h2⟩ := C48_contracts hK hu hr; exact ⟨v, h2, h1⟩
  · obtain ⟨v, h1, h2⟩ := C48_contracts hK hu hr; exact ⟨v, h2, h1⟩

/-- The hypotheses are met. -/
example : ArtifactsUntouched Demo.Y Demo.s1 := by
  have key : ∀ (ops : List (Op Demo.sig)) (s : St Demo.sig), ArtifactsUntouched Demo.Y s →
      (∀ op ∈ ops, op.leavesArtifacts) → goOn Demo.Y 9 Demo.ord ops s = true →
      ArtifactsUntouched Demo.Y (runOps Demo.Y 9 Demo.ord ops s) := by
    intro ops
    induction ops with
    | nil => exact fun s h _ _ => h
    | cons op ops ih =>
      intro s h hk hg
      simp only [goOn, Bool.and_eq_true, decide_eq_true_eq] at hg
      exact ih _ (.step 9 Demo.ord op h (hk op (by simp)) hg.1) (fun o ho => hk o (by simp [ho])) hg.2
  refine key _ _ (.new (σ := Demo.sig) (0 : Nat)) ?_ (by decide)
  intro op hop
  simp only [List.mem_append] at hop
  rcases hop with hop | hop
  · simp only [Demo.allocs, List.mem_map] at hop
    obtain ⟨b, _, rfl⟩ := hop
    trivial
  · simp only [List.mem_cons, List.not_mem_nil, or_false] at hop
    rcases hop with rfl | rfl <;> trivial

/-! ## C49: infallible builders -/

/-- The code cannot return an error, relying on the builders in `I` not to fail either. -/
def Prog.infallible (I : σ.B → Prop) : Prog σ → Prop
  | .ret r => ∃ v, r = .ok v
  | .panic => True
  | .resolve _ q k => (∀ v, (k (.ok v)).infallible I) ∧ ∀ e, ¬ I q.b → (k (.error e)).infallible I
  | .myState _ k => ∀ d, (k d).infallible I
  | .world _ k => ∀ w, (k w).infallible I
  | .alloc _ k => k.infallible I
  | .free _ k => k.infallible I

/-- **C49** Let `I` be a set of builders whose code does not return an error unless one of the builders
outside of `I` does (`Err = Never`).  Then no operation of any history ever answers with an error for a
builder in `I`: the `unpack` of such results is safe. -/
theorem C49_infallible {I : σ.B → Prop} (hI : ∀ b, I b → (Y.code b).infallible I) (h : Reachable Y s)
    {n : Nat} {ord : HashOrder} {op : Op σ} {p : Promise σ}
    (hop : (∃ how, op = .get how p) ∨ ∃ f, op = .getMut p f) (hp : I p.b) (e : σ.E) :
    (step Y n ord s op).2 ≠ .val (.art (.error e)) := by
  intro hr
  let K : Contract σ := ⟨fun _ _ => True, fun b _ => ¬ I b, fun _ _ => True, fun _ => True⟩
  have key : ∀ (b : σ.B) (c : Prog σ), (I b → c.infallible I) → c.keeps Y K b := by
    intro b c
    induction c with
    | ret r =>
      intro hc
      cases r with
      | ok v => trivial
      | error e => intro hb; obtain ⟨v, hv⟩ := hc hb; cases hv
    | panic => intro _; trivial
    | resolve how q k ih =>
      intro hc
      exact ⟨fun v _ => ih _ fun hb => (hc hb).1 _, fun e he => ih _ fun hb => (hc hb).2 e he⟩
    | myState f k ih => exact fun hc d _ => ⟨trivial, ih _ fun hb => hc hb d⟩
    | world f k ih => exact fun hc d _ => ⟨trivial, ih _ fun hb => hc hb d⟩
    | alloc q k ih => exact fun hc => ih hc
    | free a k ih => exact fun hc => ih hc
  have hK : K.Kept Y := ⟨fun b => key b _ (hI b), fun _ _ _ => ⟨trivial, fun _ _ => trivial⟩⟩
  have hu : UnderContract Y K s := by
    clear hr
    induction h with
    | new w => exact .new w trivial
    | step n ord op _ hg ih =>
      exact .step n ord op ih (by cases op <;> simp [Op.keeps, K]) hg
    | hooked D n ord op _ hg ih =>
      exact .hooked D n ord op ih (by cases op <;> simp [Op.keeps, K]) (fun _ _ _ => trivial) hg
  have := C48_contracts hK hu hr
  rcases hop with ⟨how, rfl⟩ | ⟨f, rfl⟩ <;> exact this hp

/-- The hypotheses are met: the demo builders 0, 1 and 2 are infallible, though 1 and 2 forward errors of
what they resolve (and others do fail). -/
example (n : Nat) (ord : HashOrder) (e : Nat) :
    (step Demo.Y n ord Demo.s1 (.get .bin (Demo.P 2))).2 ≠ .val (.art (.error e)) :=
  C49_infallible (I := fun b : Nat => b < 3) (Y := Demo.Y) (by
    intro b hb
    have hb : b < (3 : Nat) := hb
    match b with
    | 0 => exact fun d => ⟨d, rfl⟩
    | 1 => exact ⟨fun v => ⟨_, rfl⟩, fun e he => (he (by show (0 : Nat) < 3; omega)).elim⟩
    | 2 =>
      exact ⟨fun v => ⟨fun w => ⟨_, rfl⟩, fun e he => (he (by show (0 : Nat) < 3; omega)).elim⟩,
        fun e he => (he (by show (1 : Nat) < 3; omega)).elim⟩
    | b + 3 => exact absurd hb (by omega)) Demo.reach1
    (Or.inl ⟨.bin, rfl⟩) (show (2 : Nat) < 3 by omega) e

/-- A `SimpleBuilder`'s `build`: it has no error and no dynamic state (src/rc.rs 130-143; likewise
src/arc.rs 124-138 and src/boxed.rs 99-110). -/
inductive SimpleProg (σ : Sig)
  | ret (v : σ.V)
  | panic
  | resolve (how : Access) (q : Promise σ) (k : Except σ.E σ.V → SimpleProg σ)
  | world (f : σ.W → σ.W) (k : σ.W → SimpleProg σ)
  | alloc (p : Promise σ) (k : SimpleProg σ)
  | free (a : Id) (k : SimpleProg σ)

/-- The `build` of the blanket `impl Builder for B: SimpleBuilder`: `Ok(BinType::new(self.build(cache)))`
(src/rc.rs 145-158; src/arc.rs 139-151; src/boxed.rs 112-124). -/
def simpleCode : SimpleProg σ → Prog σ
  | .ret v => .ret (.ok v)
  | .panic => .panic
  | .resolve how q k => .resolve how q fun r => simpleCode (k r)
  | .world f k => .world f fun w => simpleCode (k w)
  | .alloc p k => .alloc p (simpleCode k)
  | .free a k => .free a (simpleCode k)

/-- **C49** A `SimpleBuilder` never fails, whatever the builders it resolves do. -/
theorem C49_simple {b : σ.B} {sp : SimpleProg σ} (hb : Y.code b = simpleCode sp) (h : Reachable Y s)
    {n : Nat} {ord : HashOrder} {op : Op σ} {p : Promise σ}
    (hop : (∃ how, op = .get how p) ∨ ∃ f, op = .getMut p f) (hp : p.b = b) (e : σ.E) :
    (step Y n ord s op).2 ≠ .val (.art (.error e)) := by
  refine C49_infallible (I := fun b' => b' = b) ?_ h hop hp e
  rintro b' rfl
  rw [hb]
  clear hb hp
  induction sp with
  | ret v => exact ⟨v, rfl⟩
  | panic => trivial
  | resolve how q k ih => exact ⟨fun v => ih _, fun e _ => ih _⟩
  | world f k ih => exact fun w => ih w
  | alloc q k ih => exact ih
  | free a k ih => exact ih

/-- The hypothesis is met by every builder from 10 on. -/
example (n : Nat) (ord : HashOrder) (e : Nat) :
    (step Demo.Y n ord Demo.s1 (.get .bin (Demo.P 12))).2 ≠ .val (.art (.error e)) :=
  C49_simple (b := (12 : Nat)) (sp := .ret (12 : Nat)) (Y := Demo.Y) rfl Demo.reach1 (Or.inl ⟨.bin, rfl⟩) rfl e

end Daab
