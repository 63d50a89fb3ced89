import Verif.Trans

/-! # Anatomy of a build -/

open Std

namespace Daab

variable {σ : Sig} {Y : Sys σ} {s : St σ}

/-- What `build` does after the builder's code has run. -/
def finish (p : Promise σ) : St σ × Res (Except σ.E σ.V) → St σ × Res (Except σ.E σ.V)
  | (s, .val (.ok v)) =>
    (s.onCache fun c => { c.emit (.built p v) with artifacts := c.artifacts.insert p.id v },
      .val (.ok v))
  | x => x

/-- The state in which the builder's code starts. -/
def entered (p : Promise σ) (s : St σ) : St σ := s.onCache (·.emit (.call p))

theorem ensureDyn_known (p : Promise σ) (s : St σ) :
    ensureDyn Y p (s.onCache (makeKnown p)) = ensureDyn Y p s := by
  have : (s.onCache (makeKnown p)).onCache (makeKnown p) = s.onCache (makeKnown p) := by
    unfold St.onCache makeKnown
    simp only
    cases h : s.c.known[p.id]? <;> simp [h]
  unfold ensureDyn
  simp only [this]

/-- A build either fails to initialise the dynamic state, or runs the builder's code. -/
theorem build_cases (g : Getter σ) (hi : Inv Y s) {p : Promise σ} (hl : s.live p = true)
    (ha : s.c.artifacts[p.id]? = none) :
    (∃ s1, ensureDyn Y p s = (s1, .panic .init) ∧ build Y g p s = (s1, .panic .init)) ∨
    (∃ s1, ensureDyn Y p s = (s1, .stuck) ∧ build Y g p s = (s1, .stuck)) ∨
    ∃ s1 d, ensureDyn Y p s = (s1, .val d) ∧
      build Y g p s = finish p (runProg Y g p (Y.code p.b) (entered p s1)) := by
  have hca : containsArtifact p.id s.c = false := by simp only [containsArtifact]; grind
  have he : (ensureDyn Y p s).2 = .panic .init ∨ (ensureDyn Y p s).2 = .stuck ∨
      ∃ d, (ensureDyn Y p s).2 = .val d := by
    have hi1 := hi.micro (.known p hl)
    have hk := hi.live_known hl
    unfold ensureDyn
    simp only
    cases hd : (s.onCache (makeKnown p)).c.dynStates[p.id]? with
    | some d =>
      simp only [hi1.dynTy _ _ _ hd hk, if_true]
      exact Or.inr (Or.inr ⟨d, rfl⟩)
    | none =>
      simp only
      cases hin : Y.init p.b (s.onCache (makeKnown p)).w with
      | mk w o =>
        cases o with
        | none => exact Or.inl rfl
        | some d =>
          simp only
          split
          · exact Or.inr (Or.inr ⟨d, rfl⟩)
          · exact Or.inr (Or.inl rfl)
  unfold build
  simp only [hca, Bool.and_false, Bool.false_eq_true, if_false, ensureDyn_known]
  generalize ensureDyn Y p s = x at he ⊢
  obtain ⟨s1, r⟩ := x
  simp only at he
  rcases he with rfl | rfl | ⟨d, rfl⟩
  · exact Or.inl ⟨s1, rfl, rfl⟩
  · exact Or.inr (Or.inl ⟨s1, rfl, rfl⟩)
  · refine Or.inr (Or.inr ⟨s1, d, rfl, ?_⟩)
    simp only [entered]
    generalize runProg Y g p (Y.code p.b) (s1.onCache (·.emit (.call p))) = y
    obtain ⟨s2, r2⟩ := y
    rcases r2 with (_ | _) | _ | _ | _ <;> rfl

theorem ensureDyn_enter (hi : Inv Y s) {p : Promise σ} (hl : s.live p = true)
    (ha : s.c.artifacts[p.id]? = none) {s1 : St σ} {d : σ.S} (he : ensureDyn Y p s = (s1, .val d)) :
    Inv Y (entered p s1) ∧ s1.c.known[p.id]? = some p.b ∧ s1.c.dynStates[p.id]? = some d ∧
    s1.c.artifacts = s.c.artifacts ∧ Micros Y s s1 ∧ Micro Y s1 (entered p s1) := by
  obtain ⟨r2, k2, a2, d2⟩ := ensureDyn_ran hi hl (Y := Y)
  rw [he] at r2 k2 a2 d2
  have hd := d2 d rfl
  have m3 : Micro Y s1 (entered p s1) :=
    .call p k2 ((mem_getElem _ _).2 ⟨d, hd⟩) (by rw [a2]; exact ha)
  exact ⟨(r2.inv hi).micro m3, k2, hd, a2, r2.micros, m3⟩

/-- After a build that was started (i.e. there was stack space) the builder is known. -/
theorem build_known {g : Getter σ} (hg : GetOk Y g) (hi : Inv Y s) {p : Promise σ}
    (hl : s.live p = true) (ha : s.c.artifacts[p.id]? = none) :
    (build Y g p s).1.c.known[p.id]? = some p.b := by
  obtain ⟨_, k2, _, _⟩ := ensureDyn_ran hi hl (Y := Y)
  rcases build_cases g hi hl ha with ⟨s1, e1, e2⟩ | ⟨s1, e1, e2⟩ | ⟨s1, d, e1, e2⟩
  · rw [e1] at k2; rw [e2]; exact k2
  · rw [e1] at k2; rw [e2]; exact k2
  · rw [e2]
    obtain ⟨i1, k1, d1, _⟩ := ensureDyn_enter hi hl ha e1
    have hr := (runProg_ran hg (Y.code p.b) i1 (p := p) k1 ((mem_getElem _ _).2 ⟨d, d1⟩)
      (.called s1 p)).1
    generalize runProg Y g p (Y.code p.b) (entered p s1) = y at hr
    obtain ⟨s2, r2⟩ := y
    have k3 := hr.micros.known_mono _ _ (show (entered p s1).c.known[p.id]? = some p.b from k1)
    rcases r2 with (_ | _) | _ | _ | _ <;> exact k3

/-- A build calls the builder's code, unless `init_dyn_state` panics. -/
theorem build_calls {g : Getter σ} (hg : GetOk Y g) (hi : Inv Y s) {p : Promise σ}
    (hl : s.live p = true) (ha : s.c.artifacts[p.id]? = none) :
    Since s (build Y g p s).1 (.call p) ∨ (build Y g p s).2 = .panic .init ∨
      (build Y g p s).2 = .stuck := by
  rcases build_cases g hi hl ha with ⟨s1, e1, e2⟩ | ⟨s1, e1, e2⟩ | ⟨s1, d, e1, e2⟩
  · rw [e2]; exact Or.inr (Or.inl rfl)
  · rw [e2]; exact Or.inr (Or.inr rfl)
  · rw [e2]
    left
    obtain ⟨i1, k1, d1, _, m1, m2⟩ := ensureDyn_enter hi hl ha e1
    have hr := (runProg_ran hg (Y.code p.b) i1 (p := p) k1 ((mem_getElem _ _).2 ⟨d, d1⟩)
      (.called s1 p)).1
    have h0 : Since s1 (entered p s1) (.call p) := ⟨[.call p], rfl, by simp⟩
    have h1 := (h0.of_prefix m1.log_mono).of_suffix hr.micros.log_mono
    generalize runProg Y g p (Y.code p.b) (entered p s1) = y at h1 hr
    obtain ⟨s2, r2⟩ := y
    rcases r2 with (_ | _) | _ | _ | _
    · exact h1
    · exact h1.of_suffix (List.suffix_cons _ _)
    · exact h1
    · exact h1
    · exact h1

/-! ## With hooks -/

/-- `finish` with hooks: the doctor is told before the insertion. -/
def finishH (D : Hooks σ) (p : Promise σ) : St σ × Res (Except σ.E σ.V) → St σ × Res (Except σ.E σ.V)
  | (s, .val (.ok v)) =>
    callHook D (.report (.built p v)) s (storeH D p v)
  | x => x

/-- Storing is finishing, but that the destructor of a replaced artifact acts, or panics. -/
theorem storeH_finish (D : Hooks σ) (p : Promise σ) (v : σ.V) (s : St σ) :
    ∃ w, (w = s.w ∨ ∃ h, w = (D s.w h).1) ∧ (storeH D p v s).1 = (finish p ({ s with w := w }, .val (.ok v))).1 ∧
      ((storeH D p v s).2 = .val (.ok v) ∨ (storeH D p v s).2 = .panic .user) := by
  obtain ⟨w, hw, e | e⟩ := storeH_eq D p v s
  · exact ⟨w, hw, by rw [e]; rfl, .inl (by rw [e])⟩
  · exact ⟨w, hw, by rw [e]; rfl, .inr (by rw [e])⟩

/-- `build_cases` with hooks. -/
theorem buildH_cases (D : Hooks σ) (g : Getter σ) (hi : Inv Y s) {p : Promise σ} (hl : s.live p = true)
    (ha : s.c.artifacts[p.id]? = none) :
    (∃ s1, ensureDyn Y p s = (s1, .panic .init) ∧ buildH Y D g p s = (s1, .panic .init)) ∨
    (∃ s1, ensureDyn Y p s = (s1, .stuck) ∧ buildH Y D g p s = (s1, .stuck)) ∨
    ∃ s1 d, ensureDyn Y p s = (s1, .val d) ∧
      buildH Y D g p s = callHook D (.handle p) s1 fun s =>
        finishH D p (runProgH Y D g p (Y.code p.b) (entered p s)) := by
  have hca : containsArtifact p.id s.c = false := by simp only [containsArtifact]; grind
  have he : buildH Y D g p s = match ensureDyn Y p s with
      | (s, .panic k) => (s, .panic k)
      | (s, .stuck) => (s, .stuck)
      | (s, .overflow) => (s, .overflow)
      | (s, .val _) => callHook D (.handle p) s fun s =>
        finishH D p (runProgH Y D g p (Y.code p.b) (entered p s)) := by
    unfold buildH
    simp only [hca, Bool.and_false, Bool.false_eq_true, if_false, ensureDyn_known]
    generalize ensureDyn Y p s = x
    obtain ⟨s1, r⟩ := x
    cases r with
    | val d =>
      simp only
      congr 1
      funext s2
      simp only [entered]
      generalize runProgH Y D g p (Y.code p.b) (s2.onCache (·.emit (.call p))) = y
      obtain ⟨s3, r2⟩ := y
      rcases r2 with (_ | _) | _ | _ | _ <;> rfl
    | _ => rfl
  rw [he]
  rcases build_cases g hi hl ha with ⟨s1, e, _⟩ | ⟨s1, e, _⟩ | ⟨s1, d, e, _⟩
  · exact Or.inl ⟨s1, e, by rw [e]⟩
  · exact Or.inr (Or.inl ⟨s1, e, by rw [e]⟩)
  · exact Or.inr (Or.inr ⟨s1, d, e, by rw [e]⟩)

/-- After a build that was started (i.e. there was stack space) the builder is known. -/
theorem buildH_known (D : Hooks σ) {g : Getter σ} (hg : GetRan Y g) (hi : Inv Y s) {p : Promise σ}
    (hl : s.live p = true) (ha : s.c.artifacts[p.id]? = none) :
    (buildH Y D g p s).1.c.known[p.id]? = some p.b := by
  obtain ⟨_, k2, _, _⟩ := ensureDyn_ran hi hl (Y := Y)
  rcases buildH_cases D g hi hl ha with ⟨s1, e1, e2⟩ | ⟨s1, e1, e2⟩ | ⟨s1, d, e1, e2⟩
  · rw [e1] at k2; rw [e2]; exact k2
  · rw [e1] at k2; rw [e2]; exact k2
  · rw [e2]
    obtain ⟨i1, k1, d1, _⟩ := ensureDyn_enter hi hl ha e1
    unfold callHook
    split
    · exact k1
    · next w _ =>
      have hr := (runProgH_ran D hg (Y.code p.b) (s := entered p { s1 with w := w }) (i1.micro (.world w))
        (p := p) k1 ((mem_getElem _ _).2 ⟨d, d1⟩) (.called { s1 with w := w } p)).1
      show (finishH D p (runProgH Y D g p (Y.code p.b) (entered p { s1 with w := w }))).1.c.known[p.id]? = some p.b
      generalize runProgH Y D g p (Y.code p.b) (entered p { s1 with w := w }) = y at hr ⊢
      obtain ⟨s2, r2⟩ := y
      have k3 := hr.micros.known_mono _ _ (show (entered p { s1 with w := w }).c.known[p.id]? = some p.b from k1)
      rcases r2 with (_ | v) | _ | _ | _
      · exact k3
      · simp only [finishH, callHook]
        split
        · exact k3
        · next w0 _ =>
          obtain ⟨w1, _, e, _⟩ := storeH_finish D p v { s2 with w := w0 }
          rw [e]
          exact k3
      · exact k3
      · exact k3
      · exact k3

/-- A build with hooks that went on has made the builder known. -/
theorem buildNH_known (D : Hooks σ) {n : Nat} (hi : Inv Y s) {p : Promise σ}
    (hl : s.live p = true) (ha : s.c.artifacts[p.id]? = none) (hg : (buildNH Y D n p s).2 ≠ .overflow) :
    (buildNH Y D n p s).1.c.known[p.id]? = some p.b := by
  cases n with
  | zero => exact absurd rfl hg
  | succ n => exact buildH_known D (getAH_ok Y D n).1 hi hl ha

theorem buildN_known {n : Nat} (hi : Inv Y s) {p : Promise σ}
    (hl : s.live p = true) (ha : s.c.artifacts[p.id]? = none) (hg : (buildN Y n p s).2 ≠ .overflow) :
    (buildN Y n p s).1.c.known[p.id]? = some p.b := by
  cases n with
  | zero => exact absurd rfl hg
  | succ n => exact build_known (getA_ok Y n).1 hi hl ha

end Daab
