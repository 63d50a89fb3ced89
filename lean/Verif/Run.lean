import Verif.Anatomy

/-! # Reasoning about running builder code -/

open Std

namespace Daab

variable {σ : Sig} {Y : Sys σ} {s : St σ}

/-- The build of `p` is running in the state `s`. -/
structure Running (Y : Sys σ) (p : Promise σ) (s : St σ) : Prop where
  inv : Inv Y s
  known : s.c.known[p.id]? = some p.b
  dyn : p.id ∈ s.c.dynStates
  pend : PendOr s p.id

theorem Running.micros {p : Promise σ} {s' : St σ} (h : Running Y p s) (hm : Micros Y s s') :
    Running Y p s' :=
  ⟨h.inv.micros hm, hm.known_mono _ _ h.known, hm.dyn_mono _ h.dyn, hm.pendOr_mono _ h.pend⟩

theorem Running.micro {p : Promise σ} {s' : St σ} (h : Running Y p s) (hm : Micro Y s s') :
    Running Y p s' := h.micros (.single hm)

/-- The state after the dependency of `p` upon `q` has been tracked. -/
def tracked (p q : Promise σ) (s : St σ) : St σ := (s.onCache (makeKnown q)).onCache (addEdge p q)

theorem Running.tracked {p q : Promise σ} (h : Running Y p s) (hl : s.live q = true) :
    Micros Y s (tracked p q s) := by
  have m1 : Micro Y s (s.onCache (makeKnown q)) := .known q hl
  have h1 := h.micro m1
  exact (Relation.ReflTransGen.single m1).tail (.track p q h1.known (h.inv.live_known hl) h1.pend)

/-- Go on with the value of a result. -/
def andThen {α β : Type} (x : St σ × Res α) (k : α → St σ → St σ × Res β) : St σ × Res β :=
  match x with
  | (s, .val r) => k r s
  | (s, .panic pk) => (s, .panic pk)
  | (s, .stuck) => (s, .stuck)
  | (s, .overflow) => (s, .overflow)

theorem runProg_resolve {g : Getter σ} {p q : Promise σ} {how : Access} {k : Except σ.E σ.V → Prog σ}
    (h : Running Y p s) (hl : s.live q = true) :
    runProg Y g p (.resolve how q k) s =
      andThen (g how q (tracked p q s)) fun r s => runProg Y g p (k r) s := by
  rw [runProg, if_pos hl, track_eq h.known]
  simp only
  rw [show ({ s with c := addEdge p q (makeKnown q s.c) } : St σ) = tracked p q s from rfl]
  generalize g how q (tracked p q s) = x
  obtain ⟨s', r⟩ := x
  cases r <;> rfl

theorem runProg_resolve_dead {g : Getter σ} {p q : Promise σ} {how : Access}
    {k : Except σ.E σ.V → Prog σ} (hl : s.live q = false) :
    runProg Y g p (.resolve how q k) s = (s, .stuck) := by
  rw [runProg, hl]; rfl

theorem runProg_myState {g : Getter σ} {p : Promise σ} {f : σ.S → σ.S} {k : σ.S → Prog σ} :
    runProg Y g p (.myState f k) s = andThen (myState Y p f s) fun r s => runProg Y g p (k r) s := by
  rw [runProg]
  generalize myState Y p f s = x
  obtain ⟨s', r⟩ := x
  cases r <;> rfl

theorem Running.myState_ran {p : Promise σ} (h : Running Y p s) (f : σ.S → σ.S) :
    Ran Y (· = p.id) s (myState Y p f s) := Daab.myState_ran h.inv h.known h.dyn f

theorem Running.run {g : Getter σ} (hg : GetOk Y g) {p : Promise σ} (h : Running Y p s)
    (prog : Prog σ) : Ran Y (· = p.id) s (runProg Y g p prog s) :=
  (runProg_ran hg prog h.inv h.known h.dyn h.pend).1

/-- `my_state` in a running build: the value, and the state afterwards. -/
theorem Running.myState_eq {p : Promise σ} (h : Running Y p s) (f : σ.S → σ.S) :
    ∃ d, s.c.dynStates[p.id]? = some d ∧ Y.stTy d = Y.sty p.b ∧
      myState Y p f s = if Y.stTy (f d) = Y.sty p.b then
        ({ s with
            c := { s.c with dynStates := s.c.dynStates.insert p.id (f d) }.emit (.setDyn p (f d)) },
          .val d)
      else (s, .stuck) := by
  obtain ⟨d, hd⟩ := (mem_getElem _ _).1 h.dyn
  have hk : isKnown p.id s.c = true := by
    have := h.known
    simp only [isKnown]; grind
  have ht := h.inv.dynTy _ _ _ hd h.known
  refine ⟨d, hd, ht, ?_⟩
  simp [myState, hd, hk, ht]

/-- The state after the running build of `p` wrote `d` as its dynamic state. -/
def wrote (p : Promise σ) (d : σ.S) (s : St σ) : St σ :=
  { s with c := { s.c with dynStates := s.c.dynStates.insert p.id d }.emit (.setDyn p d) }

theorem runProg_myState_cases {p : Promise σ} (h : Running Y p s) (g : Getter σ) (f : σ.S → σ.S)
    (k : σ.S → Prog σ) :
    ∃ d, s.c.dynStates[p.id]? = some d ∧
    ((Y.stTy (f d) ≠ Y.sty p.b ∧ runProg Y g p (.myState f k) s = (s, .stuck)) ∨
    Micro Y s (wrote p (f d) s) ∧
      runProg Y g p (.myState f k) s = runProg Y g p (k d) (wrote p (f d) s)) := by
  obtain ⟨d, hd, ht, he⟩ := h.myState_eq f
  refine ⟨d, hd, ?_⟩
  rw [runProg_myState, he]
  by_cases hf : Y.stTy (f d) = Y.sty p.b
  · right
    rw [if_pos hf]
    exact ⟨.setDyn p (f d) h.known h.dyn hf, rfl⟩
  · left
    rw [if_neg hf]
    exact ⟨hf, rfl⟩

theorem ensureDyn_running (hi : Inv Y s) {p : Promise σ} (hl : s.live p = true)
    (ha : s.c.artifacts[p.id]? = none) {s1 : St σ} {d : σ.S} (he : ensureDyn Y p s = (s1, .val d)) :
    Running Y p (entered p s1) ∧ Micros Y s (entered p s1) ∧
    (entered p s1).c.artifacts = s.c.artifacts ∧ (entered p s1).c.dynStates[p.id]? = some d := by
  obtain ⟨i1, k1, d1, a1, m1, m2⟩ := ensureDyn_enter hi hl ha he
  exact ⟨⟨i1, k1, (mem_getElem _ _).2 ⟨d, d1⟩, .called s1 p⟩, m1.tail m2, a1, d1⟩

theorem getA_dead (n : Nat) (how : Access) {p : Promise σ} (hl : s.live p = false) :
    getA Y n how p s = (s, .stuck) := (getA_ok Y n).1.dead how p s hl

theorem getA_hit (n : Nat) (how : Access) {p : Promise σ} (hi : Inv Y s) (hl : s.live p = true)
    {v : σ.V} (ha : s.c.artifacts[p.id]? = some v) :
    getA Y n how p s = (s, .val (.ok (seen Y how v))) := (getA_ok Y n).1.hit how p s hi hl v ha

theorem getA_miss (n : Nat) (how : Access) {p : Promise σ} (hi : Inv Y s) (hl : s.live p = true)
    (ha : s.c.artifacts[p.id]? = none) :
    getA Y n how p s = ((buildN Y n p s).1, seenRes Y how (buildN Y n p s).2) := by
  rw [getA_eq]
  exact getBy_miss hi (getA_ok Y n).2 how hl ha

theorem finish_artifacts {p : Promise σ} {x : St σ × Res (Except σ.E σ.V)} {a : Id}
    (h : a ≠ p.id) : (finish p x).1.c.artifacts[a]? = x.1.c.artifacts[a]? := by
  obtain ⟨s', r⟩ := x
  rcases r with (_ | v) | _ | _ | _ <;> simp [finish, St.onCache]
  grind

theorem finish_res {p : Promise σ} {x : St σ × Res (Except σ.E σ.V)} : (finish p x).2 = x.2 := by
  obtain ⟨s', r⟩ := x
  rcases r with (_ | v) | _ | _ | _ <;> rfl

theorem buildN_ran (n : Nat) {p : Promise σ} (hi : Inv Y s) (hl : s.live p = true)
    (ha : s.c.artifacts[p.id]? = none) : Ran Y noEx s (buildN Y n p s) :=
  (getA_ok Y n).2.ran p s hi hl ha

/-! ## With hooks -/

theorem runProgH_resolve {D : Hooks σ} {g : Getter σ} {p q : Promise σ} {how : Access}
    {k : Except σ.E σ.V → Prog σ} (h : Running Y p s) (hl : s.live q = true) :
    runProgH Y D g p (.resolve how q k) s =
      callHook D (.report (.resolve p q)) (tracked p q s) fun s =>
        andThen (g how q s) fun r s => runProgH Y D g p (k r) s := by
  rw [runProgH, if_pos hl, track_eq h.known]
  simp only
  rw [show ({ s with c := addEdge p q (makeKnown q s.c) } : St σ) = tracked p q s from rfl]
  congr 1
  funext s1
  generalize g how q s1 = x
  obtain ⟨s', r⟩ := x
  cases r <;> rfl

theorem runProgH_resolve_dead {D : Hooks σ} {g : Getter σ} {p q : Promise σ} {how : Access}
    {k : Except σ.E σ.V → Prog σ} (hl : s.live q = false) :
    runProgH Y D g p (.resolve how q k) s = (s, .stuck) := by
  rw [runProgH, hl]; rfl

theorem runProgH_myState {D : Hooks σ} {g : Getter σ} {p : Promise σ} {f : σ.S → σ.S} {k : σ.S → Prog σ} :
    runProgH Y D g p (.myState f k) s = andThen (myState Y p f s) fun d s => runProgH Y D g p (k d) s := by
  rw [runProgH]
  generalize myState Y p f s = x
  obtain ⟨s', r⟩ := x
  cases r <;> rfl

/-- The two ways `resolve` with hooks can go on. -/
theorem callHook_cases {α : Type} (D : Hooks σ) (h : Hook σ) (s : St σ) (k : St σ → St σ × Res α) :
    ∃ w, callHook D h s k = ({ s with w := w }, .panic .user) ∨ callHook D h s k = k { s with w := w } := by
  unfold callHook
  split
  · exact ⟨_, Or.inl rfl⟩
  · exact ⟨_, Or.inr rfl⟩

theorem callHook_cases' {α : Type} (D : Hooks σ) (h : Hook σ) (s : St σ) (k : St σ → St σ × Res α) :
    ∃ w, w = (D s.w h).1 ∧
      (callHook D h s k = ({ s with w := w }, .panic .user) ∨ callHook D h s k = k { s with w := w }) := by
  refine ⟨_, rfl, ?_⟩
  unfold callHook
  generalize D s.w h = x
  obtain ⟨w, c⟩ := x
  cases c
  · exact Or.inr rfl
  · exact Or.inl rfl

end Daab
