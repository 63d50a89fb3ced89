import Verif.Props40
import Verif.Props20

/-!
# C56 with any hooks: the cache behaves like the ideal cache, also with a doctor

The ideal cache of `Ideal.lean` with a doctor, `Debug`, `Clone` and destructors, which act on the outside world and panic as they
like: when they are called, and with what the cache remembers at that moment, is part of the specification.  (Nothing in the first
section models code of the repository.)
-/

open Std

namespace Daab

/-! ## The ideal cache, with hooks -/

namespace Ideal

variable {σ : Sig}

/-- Call a hook; go on with `k` unless it panics. -/
def hook {α : Type} (D : Hooks σ) (h : Hook σ) (m : Ideal σ) (k : Ideal σ → Ideal σ × Res α) : Ideal σ × Res α :=
  match D m.w h with
  | (w, true) => ({ m with w := w }, .panic .user)
  | (w, false) => k { m with w := w }

/-- What is handed out for an artifact: `Clone` is called for `get_cloned`, and only for it. -/
def handOut (Y : Sys σ) (D : Hooks σ) (how : Access) (v : σ.V) (m : Ideal σ) : Ideal σ × Res σ.V :=
  match how with
  | .cloned => hook D (.clone v) m fun m => (m, .val (Y.clone v))
  | _ => (m, .val v)

/-- The code of the builder `p` runs: the doctor is told about a use after it is remembered, and before the artifact is got. -/
def runH (D : Hooks σ) (get : Access → Promise σ → Ideal σ → Ideal σ × Res (Except σ.E σ.V)) (p : Promise σ) :
    Prog σ → Ideal σ → Ideal σ × Res (Except σ.E σ.V)
  | .ret r, m => (m, .val r)
  | .panic, m => (m, .panic .user)
  | .resolve how q k, m =>
    hook D (.report (.resolve p q)) (m.use p q) fun m => bind (get how q m) fun r m => runH D get p (k r) m
  | .myState f k, m =>
    match m.state p.id with
    | some d => runH D get p (k d) (m.setState p (f d))
    | none => (m, .panic .noMyState)
  | .world f k, m => runH D get p (k m.w) { m with w := f m.w }
  | .alloc q k, m => runH D get p k { m with heap := fun a => if a = q.id then some q.b else m.heap a }
  | .free b k, m => runH D get p k { m with heap := fun a => if a = b then none else m.heap a }

/-- Remember an artifact; one that was remembered in the meantime is dropped. -/
def store (D : Hooks σ) (p : Promise σ) (v : σ.V) (m : Ideal σ) : Ideal σ × Res Unit :=
  match m.art p.id with
  | none => (m.setArt p v, .val ())
  | some old => hook D (.drop old) (m.setArt p v) fun m => (m, .val ())

/-- Build: the doctor is told what was built before it is remembered. -/
def buildH (Y : Sys σ) (D : Hooks σ) (get : Access → Promise σ → Ideal σ → Ideal σ × Res (Except σ.E σ.V)) (p : Promise σ)
    (m : Ideal σ) : Ideal σ × Res (Except σ.E σ.V) :=
  bind (getState Y p m) fun _ m =>
  hook D (.handle p) m fun m =>
  bind (runH D get p (Y.code p.b) m) fun r m =>
  match r with
  | .ok v => hook D (.report (.built p v)) m fun m => bind (store D p v m) fun _ m => (m, .val (.ok v))
  | .error e => (m, .val (.error e))

/-- `get`, `get_ref`, `get_cloned`. -/
def getH (Y : Sys σ) (D : Hooks σ) : Nat → Access → Promise σ → Ideal σ → Ideal σ × Res (Except σ.E σ.V)
  | n, how, p, m =>
    match m.art p.id with
    | some v => bind (handOut Y D how v m) fun v m => (m, .val (.ok v))
    | none =>
      match n with
      | 0 => (m, .overflow)
      | n + 1 =>
        bind (buildH Y D (getH Y D n) p m) fun r m =>
        match r with
        | .ok v => bind (handOut Y D how v m) fun v m => (m, .val (.ok v))
        | .error e => (m, .val (.error e))

/-- The operations: the doctor is told about an invalidation, purging or clearing when it is done, but before `dyn_state_mut` looks
for the state; nobody else is asked about anything. -/
noncomputable def stepH (Y : Sys σ) (D : Hooks σ) (n : Nat) (m : Ideal σ) : Op σ → Ideal σ × Res (Ans σ)
  | .get how p => bind (getH Y D n how p m) fun r m => (m, .val (.art r))
  | .getMut p f =>
    bind (mutDeps p m) fun _ m =>
    bind (getH Y D n .bin p m) fun r m =>
    match r with
    | .ok v => (m.setArt p (f v), .val (.art (.ok v)))
    | .error e => (m, .val (.art (.error e)))
  | .lookup how p =>
    match m.art p.id with
    | some v => bind (handOut Y D how v m) fun v m => (m, .val (.optArt (some v)))
    | none => (m, .val (.optArt none))
  | .dynStateMut p f =>
    hook D (.report (.invalidate p)) (m.invalidate p) fun m =>
    bind (getState Y p m) fun d m => (m.setState p (f d), .val (.state d))
  | .invalidate p => hook D (.report (.invalidate p)) (m.invalidate p) fun m => (m, .val .unit)
  | .purge p => hook D (.report (.invalidate p)) (m.purge p) fun m => (m, .val .unit)
  | .clearAll => hook D (.report .clear) (empty m.heap m.w) fun m => (m, .val .unit)
  | op => step Y n m op

/-- A history of operations, each with its hooks. -/
noncomputable def playH (Y : Sys σ) : List (Hooks σ × Nat × Op σ) → Ideal σ → Ideal σ × List (Res (Ans σ))
  | [], m => (m, [])
  | (D, n, op) :: h, m =>
    let r := stepH Y D n m op
    let q := playH Y h r.1
    (q.1, r.2 :: q.2)

end Ideal

/-! ## The proof -/

section
variable {σ : Sig} {Y : Sys σ} {s : St σ}

theorem hook_ideal {α : Type} {D : Hooks σ} {h : Hook σ} {k : St σ → St σ × Res α} {K : Ideal σ → Ideal σ × Res α}
    (hk : ∀ w, (k { s with w := w }).2 ≠ .stuck → K (ideal { s with w := w }) = seenAs (k { s with w := w }))
    (hs : (callHook D h s k).2 ≠ .stuck) : Ideal.hook D h (ideal s) K = seenAs (callHook D h s k) := by
  unfold Ideal.hook
  unfold callHook at hs ⊢
  rw [show (ideal s).w = s.w from rfl]
  generalize D s.w h = x at hs ⊢
  obtain ⟨w, b⟩ := x
  cases b with
  | true => rfl
  | false => exact hk w hs

theorem bind_ideal {α β : Type} {x : St σ × Res α} {X : Ideal σ × Res α} {k : α → St σ → St σ × Res β}
    {K : α → Ideal σ → Ideal σ × Res β} (hx : x.2 ≠ .stuck → X = seenAs x)
    (hk : ∀ a s1, x = (s1, .val a) → (k a s1).2 ≠ .stuck → K a (ideal s1) = seenAs (k a s1))
    (hs : (andThen x k).2 ≠ .stuck) : Ideal.bind X K = seenAs (andThen x k) := by
  obtain ⟨s1, r⟩ := x
  cases r with
  | val a => rw [hx nofun]; exact hk a s1 rfl hs
  | panic e => rw [hx nofun]; rfl
  | stuck => exact absurd rfl hs
  | overflow => rw [hx nofun]; rfl

/-- `Clone` is called, if asked for, on what a getter has got. -/
def clonedH (Y : Sys σ) (D : Hooks σ) (how : Access) (x : St σ × Res (Except σ.E σ.V)) : St σ × Res (Except σ.E σ.V) :=
  match how, x with
  | .cloned, (s, .val (.ok v)) => callHook D (.clone v) s fun s => (s, .val (.ok (Y.clone v)))
  | _, x => x

theorem getByH_cloned (D : Hooks σ) {bld : BuildFn σ} {how : Access} {p : Promise σ} (hl : s.live p = true) :
    getByH Y D bld how p s = clonedH Y D how (getBy Y bld .bin p s) := by
  have h1 : getRef Y bld p s = getBin Y bld p s := by
    unfold getRef getBin
    rw [show lookupRef Y p s.c = lookup Y p s.c from rfl]
    generalize lookup Y p s.c = x
    rcases x with (_ | _) | _ | _ | _ <;> rfl
  cases how <;> simp only [getByH, getBy, if_pos hl, clonedH, getClonedH]
  · exact h1
  · rw [h1]
    generalize getBin Y bld p s = x
    obtain ⟨s1, r⟩ := x
    rcases r with (e | v) | k | _ | _ <;> rfl

theorem handOut_ideal {D : Hooks σ} (how : Access) (v : σ.V) (hs : (clonedH Y D how (s, .val (.ok v))).2 ≠ .stuck) :
    Ideal.bind (Ideal.handOut Y D how v (ideal s)) (fun v m => (m, .val (.ok v))) =
      seenAs (clonedH Y D how (s, .val (.ok v))) := by
  cases how with
  | cloned =>
    simp only [clonedH, Ideal.handOut, Ideal.hook] at hs ⊢
    unfold callHook at hs ⊢
    rw [show (ideal s).w = s.w from rfl]
    generalize D s.w (.clone v) = x at hs ⊢
    obtain ⟨w, b⟩ := x
    cases b <;> rfl
  | _ => rfl

theorem runProgH_ideal {D : Hooks σ} {g : Getter σ} {G : Access → Promise σ → Ideal σ → Ideal σ × Res (Except σ.E σ.V)}
    (hg : GetRan Y g) (hG : GetIdeal Y g G) {p : Promise σ} (prog : Prog σ) (h : Running Y p s)
    (hs : (runProgH Y D g p prog s).2 ≠ .stuck) :
    Ideal.runH D G p prog (ideal s) = seenAs (runProgH Y D g p prog s) := by
  induction prog generalizing s with
  | ret r =>
    cases r with
    | error e => rfl
    | ok v =>
      simp only [runProgH] at hs ⊢
      split at hs
      · next ht => rw [if_pos ht]; rfl
      · exact absurd rfl hs
  | panic => rfl
  | resolve how q k ih =>
    cases hl : s.live q with
    | false => rw [runProgH_resolve_dead hl] at hs; exact absurd rfl hs
    | true =>
      rw [runProgH_resolve h hl] at hs ⊢
      have h1 := h.micros (h.tracked hl)
      simp only [Ideal.runH]
      rw [← ideal_use h.inv hl]
      refine hook_ideal (fun w hs => ?_) hs
      have h2 := h1.micro (.world w)
      refine bind_ideal (hG how q _ h2.inv) (fun r s2 e hs => ?_) hs
      have hr := (hg how q _ h2.inv).micros
      rw [e] at hr
      exact ih r (h2.micros hr) hs
  | myState f k ih =>
    obtain ⟨d, hd, hst, e⟩ := h.myState_eq f
    rw [runProgH_myState, e] at hs ⊢
    split at hs
    · next ht =>
      rw [if_pos ht]
      simp only [Ideal.runH, andThen] at hs ⊢
      rw [show (ideal s).state p.id = some d from hd]
      simp only
      rw [← ideal_setState p (f d) s (.setDyn p (f d))]
      exact ih d (h.micro (.setDyn p (f d) h.known h.dyn ht)) hs
    · exact absurd rfl hs
  | world f k ih =>
    simp only [runProgH] at hs ⊢
    exact ih s.w (h.micro (.world _)) hs
  | alloc q k ih =>
    simp only [runProgH] at hs ⊢
    cases ha : allocB q s with
    | none => rw [ha] at hs; exact absurd rfl hs
    | some s1 =>
      simp only [ha] at hs ⊢
      simp only [Ideal.runH]
      rw [← ideal_alloc ha]
      exact ih (h.micro (.alloc q ha)) hs
  | free a k ih =>
    simp only [runProgH] at hs ⊢
    simp only [Ideal.runH]
    rw [← ideal_free]
    exact ih (h.micro (.free a)) hs

theorem storeH_ideal {D : Hooks σ} (p : Promise σ) (v : σ.V) :
    Ideal.bind (Ideal.store D p v (ideal s)) (fun _ m => (m, .val (.ok v))) = seenAs (storeH D p v s) := by
  unfold storeH
  unfold Ideal.store
  rw [show (ideal s).art p.id = s.c.artifacts[p.id]? from rfl]
  cases ha : s.c.artifacts[p.id]? with
  | none =>
    simp only [Ideal.bind, St.onCache]
    rw [← ideal_setArt p v s (.built p v)]
    rfl
  | some old =>
    simp only [St.onCache]
    rw [← ideal_setArt p v s (.built p v)]
    unfold Ideal.hook callHook
    simp only [show ∀ c : Cache σ, (ideal { s with c := c }).w = s.w from fun _ => rfl]
    generalize D s.w (.drop old) = x
    obtain ⟨w, b⟩ := x
    cases b <;> rfl

theorem buildH_ideal {D : Hooks σ} {g : Getter σ} {G : Access → Promise σ → Ideal σ → Ideal σ × Res (Except σ.E σ.V)}
    (hg : GetRan Y g) (hG : GetIdeal Y g G) (hi : Inv Y s) {p : Promise σ} (hl : s.live p = true)
    (ha : s.c.artifacts[p.id]? = none) (hs : (buildH Y D g p s).2 ≠ .stuck) :
    Ideal.buildH Y D G p (ideal s) = seenAs (buildH Y D g p s) := by
  unfold Ideal.buildH
  rcases buildH_cases D g hi hl ha with ⟨s1, e1, e2⟩ | ⟨s1, e1, e2⟩ | ⟨s1, d, e1, e2⟩
  · rw [ensureDyn_ideal hi hl (by rw [e1]; nofun), e1, e2]; rfl
  · rw [e2] at hs; exact absurd rfl hs
  · rw [ensureDyn_ideal hi hl (by rw [e1]; nofun), e1]
    rw [e2] at hs ⊢
    simp only [seenAs, Ideal.bind]
    refine hook_ideal (fun w hs => ?_) hs
    have hr := (ensureDyn_running hi hl ha e1).1.micro (.world w)
    have hx := runProgH_ideal (D := D) hg hG (Y.code p.b) hr
    rw [show ideal ({ entered p s1 with w := w } : St σ) = ideal { s1 with w := w } from rfl,
      show ({ entered p s1 with w := w } : St σ) = entered p { s1 with w := w } from rfl] at hx
    generalize runProgH Y D g p (Y.code p.b) (entered p { s1 with w := w }) = y at hx hs ⊢
    obtain ⟨s2, r⟩ := y
    rcases r with (e | v) | k | _ | _
    · rw [hx nofun]; rfl
    · rw [hx nofun]
      simp only [finishH, seenAs] at hs ⊢
      exact hook_ideal (fun w _ => storeH_ideal p v) hs
    · rw [hx nofun]; rfl
    · exact absurd rfl hs
    · rw [hx nofun]; rfl

theorem getAH_ideal (D : Hooks σ) (n : Nat) : GetIdeal Y (getAH Y D n) (Ideal.getH Y D n) := by
  induction n with
  | zero =>
    intro how p s hi hs
    rw [getAH_eq] at hs ⊢
    cases hl : s.live p with
    | false => unfold getByH at hs; rw [hl] at hs; exact absurd rfl hs
    | true =>
      rw [getByH_cloned D hl] at hs ⊢
      unfold Ideal.getH
      rw [show (ideal s).art p.id = s.c.artifacts[p.id]? from rfl]
      cases ha : s.c.artifacts[p.id]? with
      | some v =>
        rw [getBy_hit hi _ .bin hl ha] at hs ⊢
        exact handOut_ideal how v hs
      | none =>
        rw [getBy_miss hi (getAH_ok Y D 0).2 .bin hl ha]
        cases how <;> rfl
  | succ n ih =>
    intro how p s hi hs
    rw [getAH_eq] at hs ⊢
    cases hl : s.live p with
    | false => unfold getByH at hs; rw [hl] at hs; exact absurd rfl hs
    | true =>
      rw [getByH_cloned D hl] at hs ⊢
      unfold Ideal.getH
      rw [show (ideal s).art p.id = s.c.artifacts[p.id]? from rfl]
      cases ha : s.c.artifacts[p.id]? with
      | some v =>
        rw [getBy_hit hi _ .bin hl ha] at hs ⊢
        exact handOut_ideal how v hs
      | none =>
        rw [getBy_miss hi (getAH_ok Y D (n + 1)).2 .bin hl ha] at hs ⊢
        have hsr : ∀ r, seenRes Y .bin r = r := by
          intro r; rcases r with (_ | _) | _ | _ | _ <;> rfl
        rw [hsr] at hs ⊢
        have hx := buildH_ideal (D := D) (getAH_ok Y D n).1 ih hi hl ha
        rw [show buildNH Y D (n + 1) = buildH Y D (getAH Y D n) from rfl] at hs ⊢
        simp only
        generalize buildH Y D (getAH Y D n) p s = x at hs hx ⊢
        obtain ⟨s1, r⟩ := x
        rcases r with (e | v) | k | _ | _
        · rw [hx nofun]; cases how <;> rfl
        · rw [hx nofun]; exact handOut_ideal how v hs
        · rw [hx nofun]; cases how <;> rfl
        · cases how <;> exact absurd rfl hs
        · rw [hx nofun]; cases how <;> rfl

theorem execH_ideal (h : Reachable Y s) (D : Hooks σ) (n : Nat) (ord : HashOrder) (op : Op σ)
    (hl : ∀ p, op.promise? = some p → s.live p = true) (hs : (execH Y D n ord s op).2 ≠ .stuck) :
    (Ideal.stepH Y D n (ideal s) op).2 = (execH Y D n ord s op).2 ∧
    ((execH Y D n ord s op).2 ≠ .panic .noCounterpart →
      (Ideal.stepH Y D n (ideal s) op).1 = ideal (execH Y D n ord s op).1) := by
  have hi := h.inv
  have full : Ideal.stepH Y D n (ideal s) op = seenAs (execH Y D n ord s op) →
      (Ideal.stepH Y D n (ideal s) op).2 = (execH Y D n ord s op).2 ∧
      ((execH Y D n ord s op).2 ≠ .panic .noCounterpart →
        (Ideal.stepH Y D n (ideal s) op).1 = ideal (execH Y D n ord s op).1) := by
    intro e; rw [e]; exact ⟨rfl, fun _ => rfl⟩
  cases op with
  | get how p =>
    apply full
    simp only [execH, Ideal.stepH] at hs ⊢
    have hx := getAH_ideal (Y := Y) D n how p s hi
    generalize getAH Y D n how p s = x at hx hs ⊢
    obtain ⟨s1, r⟩ := x
    rw [hx (by rintro rfl; exact hs rfl)]
    cases r <;> rfl
  | getMut p f =>
    have hl := hl p rfl
    simp only [execH] at hs ⊢
    rcases ideal_mutDeps hi ord p with ⟨c', e1, e2⟩ | ⟨c', e1, hinv, e2⟩
    · rcases getMut_spec_of hi (getAH_ok Y D n).2 ord hl with ⟨c1, he, _⟩ | ⟨c1, h1, _⟩
      · rw [he]
        simp only [Ideal.stepH, e2]
        exact ⟨rfl, fun h => absurd rfl h⟩
      · rw [e1] at h1; cases h1
    · rcases getMut_spec_of hi (getAH_ok Y D n).2 ord hl with ⟨c1, he, x, hx1, hx2⟩ | ⟨c1, h1, h2⟩
      · rcases hi.invalidateDependents ord p.id with ⟨c2, he', _⟩ | ⟨c2, _, hall, _⟩
        · rw [e1] at he'; cases he'
        · exact absurd (hall x hx2) hx1
      · rw [e1] at h1
        cases h1
        have hx := getAH_ideal (Y := Y) D n .bin p _ hinv
        have hl' : ({ s with c := c' } : St σ).live p = true := hl
        rw [getAH_eq, getByH_cloned D hl'] at hx
        rcases h2 with ⟨c2, v, g1, g2, g3, g4, he⟩ | ⟨g1, he⟩
        · apply full
          have hno : ∀ x, ¬ Dep c' x p.id := by
            rcases hi.invalidateDependents ord p.id with ⟨c3, he', _⟩ | ⟨c3, he', _, _, hno, _⟩
            · rw [e1] at he'; cases he'
            · rw [e1] at he'; cases he'; exact hno
          have hk : p.id ∈ c'.known :=
            hinv.dynKnown _ (hinv.artDyn _ (ExtTreeMap.mem_iff_isSome_getElem?.2 (by rw [g1]; rfl)))
          have h2 := ideal_mutDeps_again hinv ord hno hk g2
          simp only [execH, he] at hs ⊢
          rw [getBy_hit hinv _ .bin hl' g1] at hx
          have hg := hx nofun
          rw [show seenAs (clonedH Y D .bin (({ s with c := c' } : St σ), .val (.ok (seen Y .bin v)))) =
            (ideal { s with c := c' }, .val (.ok v)) from rfl] at hg
          simp only [Ideal.stepH, e2, Ideal.bind, hg]
          rw [← h2]
          unfold writeArt at hs ⊢
          split at hs
          · next c3 hw =>
            split at hw
            · next ht =>
              cases hw
              simp only [seenAs]
              rw [← ideal_setArt p (f v) { s with c := c2 } (.write p.id (f v))]
            · cases hw
          · exact absurd rfl hs
        · apply full
          rw [getBy_miss hinv (getAH_ok Y D n).2 .bin hl' g1] at hx
          simp only [execH, he] at hs ⊢
          simp only [Ideal.stepH, e2, Ideal.bind]
          have hsr : ∀ r, seenRes Y .bin r = r := by
            intro r; rcases r with (_ | _) | _ | _ | _ <;> rfl
          rw [hsr] at hx
          rw [show ∀ x, clonedH Y D .bin x = x from fun x => rfl] at hx
          generalize buildNH Y D n p { s with c := c' } = x at hx hs ⊢
          obtain ⟨s1, r⟩ := x
          rcases r with (e | v) | k | _ | _
          · rw [hx nofun]; rfl
          · rw [hx nofun]
            simp only [seenAs] at hs ⊢
            unfold writeArt at hs ⊢
            split at hs
            · next c3 hw =>
              split at hw
              · next ht =>
                cases hw
                simp only
                rw [← ideal_setArt p (f v) s1 (.write p.id (f v))]
              · cases hw
            · exact absurd rfl hs
          · rw [hx nofun]; rfl
          · exact absurd rfl hs
          · rw [hx nofun]; rfl
  | lookup how p =>
    apply full
    have h1 : lookupRef Y p s.c = .val s.c.artifacts[p.id]? := lookupRef_eq hi (hl p rfl)
    have h2 : lookup Y p s.c = .val s.c.artifacts[p.id]? := lookup_eq hi (hl p rfl)
    simp only [execH, Ideal.stepH]
    rw [show (ideal s).art p.id = s.c.artifacts[p.id]? from rfl]
    unfold lookupByH Ideal.handOut
    rw [h1, h2]
    cases s.c.artifacts[p.id]? with
    | none => cases how <;> rfl
    | some v =>
      cases how with
      | cloned =>
        simp only [Ideal.hook, callHook]
        rw [show (ideal s).w = s.w from rfl]
        generalize D s.w (.clone v) = x
        obtain ⟨w, b⟩ := x
        cases b <;> rfl
      | _ => rfl
  | dynStateMut p f =>
    apply full
    have hl := hl p rfl
    obtain ⟨c', he, hd⟩ := invalidate_spec hi ord p
    have hinv := hi.invalidated hd
    simp only [execH, Ideal.stepH] at hs ⊢
    rw [← ideal_invalidated hi hd (.invalidate p)]
    unfold dynStateMutH at hs ⊢
    rw [he] at hs ⊢
    simp only at hs ⊢
    unfold Ideal.hook
    unfold callHook at hs ⊢
    rw [show (ideal { s with c := c'.emit (.invalidate p) }).w = s.w from rfl]
    simp only at hs ⊢
    generalize D s.w (.report (.invalidate p)) = x at hs ⊢
    obtain ⟨w, b⟩ := x
    cases b with
    | true => rfl
    | false =>
      simp only at hs ⊢
      have hinv := hinv.micro (.world w)
      have hx := ensureDyn_ideal hinv (p := p) hl
      rw [show ideal ({ s with c := c'.emit (.invalidate p), w := w } : St σ) =
        { ideal { s with c := c'.emit (.invalidate p) } with w := w } from rfl] at hx
      generalize ensureDyn Y p { s with c := c'.emit (.invalidate p), w := w } = x at hx hs ⊢
      obtain ⟨s1, r⟩ := x
      cases r with
      | val d =>
        rw [hx nofun]
        simp only [seenAs, Ideal.bind] at hs ⊢
        split at hs
        · next ht =>
          rw [if_pos ht]
          simp only [St.onCache, Res.map]
          rw [← ideal_setState p (f d) s1 (.setDyn p (f d))]
        · exact absurd rfl hs
      | panic k => rw [hx nofun]; rfl
      | stuck => exact absurd rfl hs
      | overflow => rw [hx nofun]; rfl
  | invalidate p =>
    apply full
    obtain ⟨c', he, hd⟩ := invalidate_spec hi ord p
    simp only [execH, he, Ideal.stepH, thenTell] at hs ⊢
    rw [← ideal_invalidated hi hd (.invalidate p)]
    exact hook_ideal (fun w _ => rfl) hs
  | purge p =>
    apply full
    obtain ⟨h1, h2⟩ := ideal_purged hi ord p
    simp only [execH, Ideal.stepH] at hs ⊢
    rw [← h1]
    generalize purge Y ord p s.c = x at h2 hs ⊢
    obtain ⟨c, e⟩ := x
    cases h2
    simp only [thenTell] at hs ⊢
    exact hook_ideal (fun w _ => rfl) hs
  | clearAll =>
    apply full
    have h1 := (exec_ideal h n ord .clearAll (by intro p hp; cases hp) nofun).2 nofun
    simp only [Ideal.step, exec] at h1
    simp only [execH, Ideal.stepH] at hs ⊢
    rw [h1]
    exact hook_ideal (fun w _ => rfl) hs
  | _ => exact exec_ideal h n ord _ hl hs

/-- **C56** One operation with any doctor, `Debug`, `Clone` and destructors, which act on the outside world and panic as they like:
the cache answers what the ideal cache with the same hooks answers, it has called the same hooks at the same moments (so that they
have done the same to the outside world), and afterwards the two agree on everything they remember, also if a hook has panicked,
unless the operation was the mutable access of finding 2 that panics. -/
theorem C56_any_hooks_operation (h : Reachable Y s) (D : Hooks σ) (n : Nat) (ord : HashOrder) (op : Op σ)
    (hs : (stepH Y D n ord s op).2 ≠ .stuck) :
    (Ideal.stepH Y D n (ideal s) op).2 = (stepH Y D n ord s op).2 ∧
    ((stepH Y D n ord s op).2 ≠ .panic .noCounterpart →
      (Ideal.stepH Y D n (ideal s) op).1 = ideal (stepH Y D n ord s op).1) := by
  rcases stepH_cases (Y := Y) (s := s) D n ord op with ⟨hl, e⟩ | e
  · rw [e] at hs ⊢; exact execH_ideal h D n ord op hl hs
  · rw [e] at hs; exact absurd rfl hs

/-- The operations of a history and their hooks, without the hash orders. -/
def HistoryH.ops (hist : HistoryH σ) : List (Hooks σ × Nat × Op σ) := hist.map fun x => (x.1, x.2.1, x.2.2.2)

theorem playH_ideal (hist : HistoryH σ) (h : Reachable Y s) (hg : ∀ r ∈ (playH Y hist s).2, r.goesOn) :
    Ideal.playH Y hist.ops (ideal s) = (ideal (playH Y hist s).1, (playH Y hist s).2) := by
  induction hist generalizing s with
  | nil => rfl
  | cons x hist ih =>
    obtain ⟨D, n, ord, op⟩ := x
    simp only [playH] at hg ⊢
    have hg1 : (stepH Y D n ord s op).2.goesOn := hg _ (by simp)
    obtain ⟨h1, h2⟩ := C56_any_hooks_operation h D n ord op (by intro e; rw [e] at hg1; exact hg1)
    have h2 := h2 (by intro e; rw [e] at hg1; exact hg1 rfl)
    have := ih (.hooked D n ord op h hg1) (fun r hr => hg r (List.mem_cons_of_mem _ hr))
    simp only [HistoryH.ops, List.map_cons, Ideal.playH] at this ⊢
    rw [h1, h2, this]

/-- **C56** Whole histories: a new cache gives, operation by operation, the answers of the ideal cache that remembers nothing,
whatever the builders and the hooks do and whatever the hash orders are, and the outside world is left as the ideal cache leaves it. -/
theorem C56_any_hooks_history (w : σ.W) (hist : HistoryH σ) (hg : ∀ r ∈ (playH Y hist (St.new w)).2, r.goesOn) :
    (Ideal.playH Y hist.ops (Ideal.empty (fun _ => none) w)).2 = (playH Y hist (St.new w)).2 ∧
    (Ideal.playH Y hist.ops (Ideal.empty (fun _ => none) w)).1 = ideal (playH Y hist (St.new w)).1 := by
  rw [← ideal_new, playH_ideal hist (.new w) hg]
  exact ⟨rfl, rfl⟩

/-- **C56** Nothing but what the ideal cache remembers matters: two caches that remember the same give the same answers to the same
operations with the same hooks from then on, and leave the outside world the same. -/
theorem C56_any_hooks_only_this_matters {t : St σ} (h : Reachable Y s) (h' : Reachable Y t) (he : ideal s = ideal t)
    {hist hist' : HistoryH σ} (hops : hist.ops = hist'.ops) (hg : ∀ r ∈ (playH Y hist s).2, r.goesOn)
    (hg' : ∀ r ∈ (playH Y hist' t).2, r.goesOn) :
    (playH Y hist s).2 = (playH Y hist' t).2 ∧ (playH Y hist s).1.w = (playH Y hist' t).1.w := by
  have h1 := playH_ideal hist h hg
  have h2 := playH_ideal hist' h' hg'
  rw [he, hops, h2] at h1
  refine ⟨(congrArg Prod.snd h1).symm, ?_⟩
  exact (congrArg (fun x => x.1.w) h1).symm

end

/-! ## Examples -/

namespace Demo

/-- A history with hooks that count in the outside world how often they were called, and panic at the fourth call, which is within a
build. -/
def long41 : HistoryH sig :=
  ([.alloc (P 0), .alloc (P 1), .alloc (P 2), .get .bin (P 2), .get .cloned (P 2), .dynStateMut (P 0) (· + 3), .lookup .cloned (P 1),
    .get .cloned (P 1), .lookupMut (P 1) (· + 1), .lookup .cloned (P 1), .purge (P 1), .getMut (P 1) (· + 1), .invalidate (P 1),
    .free 12, .gc, .numKnown, .clearAll] : List (Op sig)).map fun o => (tick (3 : Nat), 9, ord, o)

set_option smartUnfolding false in
theorem long41_goes : ∀ r ∈ (playH Y long41 (St.new (0 : Nat))).2, r.goesOn := by
  decide +kernel

set_option smartUnfolding false in
/-- Its answers, and how often the hooks were called, are those of the ideal cache. -/
example : (Ideal.playH Y long41.ops (Ideal.empty (fun _ => none) (0 : Nat))).1.w = (playH Y long41 (St.new (0 : Nat))).1.w ∧
    (Ideal.playH Y long41.ops (Ideal.empty (fun _ => none) (0 : Nat))).2[3]? = some (.panic .user) := by
  obtain ⟨h1, h2⟩ := C56_any_hooks_history (Y := Y) (0 : Nat) long41 long41_goes
  rw [h1, h2]
  exact ⟨rfl, rfl⟩

/-- `C56_any_hooks_operation`: a `get` of an artifact that is there, while `Clone` panics, and one without `Clone`. -/
example : (Ideal.stepH Y (tick s1.w) 9 (ideal s1) (.get .cloned (P 0))).2 = .panic .user ∧
    (Ideal.stepH Y (tick s1.w) 9 (ideal s1) (.get .ref (P 0))).2 = .val (.art (.ok (5 : Nat))) :=
  ⟨(C56_any_hooks_operation reach1 (tick s1.w) 9 ord (.get .cloned (P 0)) (fun h => by cases h)).1.trans rfl,
   (C56_any_hooks_operation reach1 (tick s1.w) 9 ord (.get .ref (P 0)) (fun h => by cases h)).1.trans rfl⟩

/-- `C56_any_hooks_only_this_matters`: with and without a lookup before. -/
example : let t := (step Y 9 ord s1 (.lookup .ref (P 1))).1
    let hist : HistoryH sig := [(tick (2 : Nat), 9, ord, .invalidate (P 0)), (tick (99 : Nat), 9, ord, .get .bin (P 2))]
    let hist' : HistoryH sig := [(tick (2 : Nat), 9, ord', .invalidate (P 0)), (tick (99 : Nat), 9, ord', .get .bin (P 2))]
    (playH Y hist s1).2 = (playH Y hist' t).2 ∧ (playH Y hist s1).1.w = (playH Y hist' t).1.w := by
  intro t hist hist'
  exact C56_any_hooks_only_this_matters reach1 (reach1.step 9 ord (.lookup .ref (P 1)) (by decide)) rfl rfl
    (by decide +kernel) (by decide +kernel)

end Demo

end Daab
