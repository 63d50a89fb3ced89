import Verif.Props33

/-!
# Groundwork for the core properties with any hooks

What the getters do with any doctor, `Debug` and `Clone` (`getByH_getBy`); in a directed acyclic graph they do not overflow; more
stack changes nothing; and a cycle of builders never returns.
-/

open Std

namespace Daab

variable {σ : Sig} {Y : Sys σ} {s s' : St σ}

/-- A getter with hooks is the getter without, but that `Clone` may act and panic after it. -/
theorem getByH_getBy (D : Hooks σ) (bld : BuildFn σ) (how : Access) (p : Promise σ) (s : St σ) :
    ∃ w, (getByH Y D bld how p s).1 = { (getBy Y bld how p s).1 with w := w } ∧
      ((getByH Y D bld how p s).2 = (getBy Y bld how p s).2 ∨
        how = .cloned ∧ (getByH Y D bld how p s).2 = .panic .user ∧ ∃ v, (getBy Y bld how p s).2 = .val (.ok v)) ∧
      (how ≠ .cloned → w = (getBy Y bld how p s).1.w) := by
  unfold getByH getBy
  split
  · cases how with
    | bin => exact ⟨_, rfl, .inl rfl, fun _ => rfl⟩
    | ref => exact ⟨_, rfl, .inl rfl, fun _ => rfl⟩
    | cloned =>
      simp only [getClonedH, getCloned]
      generalize getRef Y bld p s = x
      obtain ⟨s1, r⟩ := x
      rcases r with (e | v) | k | _ | _
      · exact ⟨s1.w, rfl, .inl rfl, fun h => absurd rfl h⟩
      · obtain ⟨w, e | e⟩ := callHook_cases D (.clone v) s1
          (fun s => (s, .val (.ok (Y.clone v))) : St σ → St σ × Res (Except σ.E σ.V))
        · simp only; rw [e]; exact ⟨w, rfl, .inr ⟨trivial, rfl, _, rfl⟩, fun h => absurd rfl h⟩
        · simp only; rw [e]; exact ⟨w, rfl, .inl rfl, fun h => absurd rfl h⟩
      all_goals exact ⟨s1.w, rfl, .inl rfl, fun h => absurd rfl h⟩
  · exact ⟨s.w, rfl, .inl rfl, fun _ => rfl⟩

theorem getAH_eq (D : Hooks σ) (n : Nat) : getAH Y D n = getByH Y D (buildNH Y D n) := by cases n <;> rfl

/-- `getBy` with the builds of `getAH`. -/
theorem getAH_by (D : Hooks σ) (n : Nat) : GetOk Y (getBy Y (buildNH Y D n)) := getBy_ok (getAH_ok Y D n).2

theorem getAH_val {D : Hooks σ} {n : Nat} {how : Access} {p : Promise σ} {r : Except σ.E σ.V}
    (hr : (getAH Y D n how p s).2 = .val r) : (getBy Y (buildNH Y D n) how p s).2 = .val r := by
  rw [getAH_eq] at hr
  obtain ⟨w, _, h2 | ⟨_, h2, _⟩, _⟩ := getByH_getBy (Y := Y) D (buildNH Y D n) how p s
  · rw [← h2]; exact hr
  · rw [h2] at hr; cases hr

theorem stepH_get {D : Hooks σ} {n : Nat} {ord : HashOrder} {how : Access} {p : Promise σ} (hl : s.live p = true) :
    stepH Y D n ord s (.get how p) = ((getAH Y D n how p s).1, (getAH Y D n how p s).2.map .art) := by
  rw [stepH_live rfl hl]; rfl

/-! ## A directed acyclic graph bounds the stack -/

theorem callHook_no_overflow {α : Type} {D : Hooks σ} {h : Hook σ} {s : St σ} {k : St σ → St σ × Res α}
    (hk : ∀ w, (k { s with w := w }).2 ≠ .overflow) : (callHook D h s k).2 ≠ .overflow := by
  obtain ⟨w, e | e⟩ := callHook_cases D h s k
  · rw [e]; simp
  · rw [e]; exact hk w

theorem runProgH_no_overflow {D : Hooks σ} {g : Getter σ} (hg : GetRan Y g) {P : Promise σ → Prop}
    (hno : ∀ how q s, Inv Y s → P q → (g how q s).2 ≠ .overflow) {p : Promise σ} (prog : Prog σ)
    (hP : prog.only P) (hr : Running Y p s) : (runProgH Y D g p prog s).2 ≠ .overflow := by
  induction prog generalizing s with
  | ret r =>
    cases r with
    | error e => simp [runProgH]
    | ok v => simp only [runProgH]; split <;> simp
  | panic => simp [runProgH]
  | resolve how q k ih =>
    cases hl : s.live q with
    | false => rw [runProgH_resolve_dead hl]; simp
    | true =>
      rw [runProgH_resolve hr hl]
      refine callHook_no_overflow fun w => ?_
      have r2 := (hr.micros (hr.tracked hl)).micro (.world w)
      have h1 := hno how q _ r2.inv hP.1
      have h2 := (hg how q _ r2.inv).micros
      generalize g how q { tracked p q s with w := w } = x at h1 h2
      obtain ⟨s', r⟩ := x
      cases r with
      | val r => exact ih r (hP.2 r) (r2.micros h2)
      | overflow => exact absurd rfl h1
      | _ => simp [andThen]
  | myState f k ih =>
    obtain ⟨d, hd, hst, e⟩ := hr.myState_eq f
    rw [runProgH_myState, e]
    split
    · next ht => exact ih d (hP d) (hr.micro (.setDyn p (f d) hr.known hr.dyn ht))
    · simp [andThen]
  | world f k ih => exact ih _ (hP _) (hr.micro (.world _))
  | alloc q k ih =>
    rw [runProgH]
    cases ha : allocB q s with
    | none => simp
    | some s' => exact ih hP (hr.micro (.alloc q ha))
  | free a k ih => exact ih hP (hr.micro (.free a))

theorem finishH_no_overflow {D : Hooks σ} {p : Promise σ} {x : St σ × Res (Except σ.E σ.V)} (h : x.2 ≠ .overflow) :
    (finishH D p x).2 ≠ .overflow := by
  obtain ⟨s, r⟩ := x
  rcases r with (_ | v) | _ | _ | _ <;> try exact h
  refine callHook_no_overflow fun w => ?_
  obtain ⟨w', _, _, e | e⟩ := storeH_finish D p v { s with w := w }
  all_goals rw [e]; simp

theorem getAH_no_overflow {rk : σ.B → Nat} (hrk : Ranked Y rk) (D : Hooks σ) (n : Nat) (how : Access) (p : Promise σ)
    (hi : Inv Y s) (hn : rk p.b < n) : (getAH Y D n how p s).2 ≠ .overflow := by
  induction n generalizing s how p with
  | zero => omega
  | succ n ih =>
    have hplain : (getBy Y (buildNH Y D (n + 1)) how p s).2 ≠ .overflow := by
      cases hl : s.live p with
      | false => rw [(getAH_by D (n + 1)).dead how p s hl]; simp
      | true =>
        cases ha : s.c.artifacts[p.id]? with
        | some v => rw [getBy_hit hi _ how hl ha]; simp
        | none =>
          rw [getBy_miss hi (getAH_ok Y D (n + 1)).2 how hl ha]
          have : (buildNH Y D (n + 1) p s).2 ≠ .overflow := by
            simp only [buildNH]
            rcases buildH_cases D (getAH Y D n) hi hl ha with ⟨s1, _, e⟩ | ⟨s1, _, e⟩ | ⟨s1, d, e1, e2⟩
            · rw [e]; simp
            · rw [e]; simp
            · rw [e2]
              refine callHook_no_overflow fun w => finishH_no_overflow ?_
              refine runProgH_no_overflow (getAH_ok Y D n).1 (P := fun q => rk q.b < rk p.b) ?_ _ (hrk p.b)
                ((ensureDyn_running hi hl ha e1).1.micro (.world w))
              intro how q s hi hq
              exact ih how q hi (by omega)
          generalize (buildNH Y D (n + 1) p s).2 = r at this ⊢
          rcases r with (_ | _) | _ | _ | _ <;> simp_all [seenRes]
    rw [getAH_eq]
    obtain ⟨w, _, h2 | ⟨_, h2, _⟩, _⟩ := getByH_getBy (Y := Y) D (buildNH Y D (n + 1)) how p s
    · rw [h2]; exact hplain
    · rw [h2]; simp

/-! ## More stack changes nothing -/

theorem callHook_congr {α : Type} {D : Hooks σ} {h : Hook σ} {s : St σ} {k k' : St σ → St σ × Res α}
    (hno : (callHook D h s k).2 ≠ .overflow) (hk : ∀ w, (k { s with w := w }).2 ≠ .overflow → k' { s with w := w } = k { s with w := w }) :
    callHook D h s k' = callHook D h s k := by
  unfold callHook at hno ⊢
  split
  · rfl
  · next w he => rw [he] at hno; exact hk w hno

theorem runProgH_extends {D : Hooks σ} {g g' : Getter σ} (hg : Extends g g') {p : Promise σ} (prog : Prog σ)
    (hno : (runProgH Y D g p prog s).2 ≠ .overflow) : runProgH Y D g' p prog s = runProgH Y D g p prog s := by
  induction prog generalizing s with
  | ret r => cases r <;> rfl
  | panic => rfl
  | resolve how q k ih =>
    simp only [runProgH] at hno ⊢
    split
    · next hl =>
      rw [if_pos hl] at hno
      generalize track Y p q s.c = t at hno
      obtain ⟨c, o⟩ := t
      cases o with
      | some pk => rfl
      | none =>
        simp only at hno ⊢
        refine callHook_congr hno fun w hno => ?_
        have h1 := hg how q { s with c := c, w := w }
        simp only at hno ⊢
        generalize g how q { s with c := c, w := w } = x at hno h1
        obtain ⟨s', r⟩ := x
        cases r with
        | overflow => exact absurd rfl hno
        | val r => rw [h1 (by simp)]; exact ih r hno
        | panic k => rw [h1 (by simp)]
        | stuck => rw [h1 (by simp)]
    · rfl
  | myState f k ih =>
    rw [runProgH_myState] at hno ⊢
    rw [runProgH_myState]
    generalize myState Y p f s = x at hno
    obtain ⟨s', r⟩ := x
    cases r with
    | val r => exact ih r hno
    | _ => rfl
  | world f k ih => exact ih _ hno
  | alloc q k ih =>
    simp only [runProgH] at hno ⊢
    cases ha : allocB q s with
    | none => rfl
    | some s' => rw [ha] at hno; exact ih hno
  | free a k ih => exact ih hno

theorem buildH_extends {D : Hooks σ} {g g' : Getter σ} (hg : Extends g g') {p : Promise σ}
    (hno : (buildH Y D g p s).2 ≠ .overflow) : buildH Y D g' p s = buildH Y D g p s := by
  simp only [buildH] at hno ⊢
  split
  · rfl
  · next hc =>
    rw [if_neg hc] at hno
    generalize ensureDyn Y p (s.onCache (makeKnown p)) = x at hno
    obtain ⟨s1, r⟩ := x
    cases r with
    | val d =>
      simp only at hno ⊢
      refine callHook_congr hno fun w hno => ?_
      have h1 := runProgH_extends (Y := Y) (D := D) (s := ({ s1 with w := w } : St σ).onCache (·.emit (.call p))) hg (p := p) (Y.code p.b)
      generalize runProgH Y D g p (Y.code p.b) (({ s1 with w := w } : St σ).onCache (·.emit (.call p))) = y at hno h1
      obtain ⟨s2, r⟩ := y
      rw [h1 (by rcases r with (_ | _) | _ | _ | _ <;> simp_all)]
    | _ => rfl

theorem getByH_extends {D : Hooks σ} {b b' : BuildFn σ} (hb : ∀ p s, (b p s).2 ≠ .overflow → b' p s = b p s) :
    Extends (getByH Y D b) (getByH Y D b') := by
  intro how p s hno
  have hx := getBy_extends (Y := Y) hb
  unfold getByH at hno ⊢
  split
  · next hl =>
    rw [if_pos hl] at hno
    cases how with
    | bin => have := hx .bin p s; simp only [getBy, hl, if_true] at this; exact this hno
    | ref => have := hx .ref p s; simp only [getBy, hl, if_true] at this; exact this hno
    | cloned =>
      have := hx .ref p s
      simp only [getBy, hl, if_true] at this
      simp only [getClonedH] at hno ⊢
      rw [this]
      intro h
      apply hno
      generalize getRef Y b p s = x at h
      obtain ⟨s', r⟩ := x
      rcases r with (_ | _) | _ | _ | _ <;> simp_all
  · rfl

theorem getAH_extends (D : Hooks σ) (n : Nat) : Extends (getAH Y D n) (getAH Y D (n + 1)) := by
  induction n with
  | zero => exact getByH_extends fun p s h => absurd rfl h
  | succ n ih => exact getByH_extends fun p s h => buildH_extends ih h

theorem getAH_mono (D : Hooks σ) {n m : Nat} (h : n ≤ m) : Extends (getAH Y D n) (getAH Y D m) := by
  induction h with
  | refl => exact fun _ _ _ _ => rfl
  | step h ih =>
    intro how q s hno
    have h1 := ih how q s hno
    rw [← h1]
    exact getAH_extends D _ how q s (by rw [h1]; exact hno)

/-! ## Cycles never return -/

theorem runProgH_none {D : Hooks σ} {g : Getter σ} (hg : GetRan Y g) {C : Promise σ → Prop}
    (hC : ∀ how q s, Inv Y s → NoneCached C s → C q → ∀ r, (g how q s).2 ≠ .val r)
    (hk : ∀ how q s, Inv Y s → NoneCached C s → KeepsNone C (g how q s)) {p : Promise σ} (prog : Prog σ)
    (hr : Running Y p s) (hn : NoneCached C s) :
    KeepsNone C (runProgH Y D g p prog s) ∧ (prog.demands C → ∀ r, (runProgH Y D g p prog s).2 ≠ .val r) := by
  induction prog generalizing s with
  | ret r =>
    refine ⟨?_, fun h => h.elim⟩
    intro r' _
    cases r <;> exact hn
  | panic => exact ⟨fun r h => (by cases h), fun _ r h => by cases h⟩
  | resolve how q k ih =>
    cases hl : s.live q with
    | false =>
      rw [runProgH_resolve_dead hl]
      exact ⟨fun r h => (by cases h), fun _ r h => by cases h⟩
    | true =>
      rw [runProgH_resolve hr hl]
      have m1 : Micro Y s (s.onCache (makeKnown q)) := .known q hl
      have r1 := hr.micro m1
      have n1 := hn.micro hr.inv m1 (makeKnown_artifacts _ _)
      have m2 : Micro Y _ (tracked p q s) := .track p q r1.known (hr.inv.live_known hl) r1.pend
      have r2 := r1.micro m2
      have n2 := n1.micro r1.inv m2 rfl
      obtain ⟨w, e | e⟩ := callHook_cases D (.report (.resolve p q)) (tracked p q s)
        (fun s => andThen (g how q s) fun r s => runProgH Y D g p (k r) s)
      · rw [e]; exact ⟨fun r h => (by cases h), fun _ r h => by cases h⟩
      · rw [e]
        replace r2 : Running Y p { tracked p q s with w := w } := r2.micro (.world w)
        replace n2 : NoneCached C { tracked p q s with w := w } := n2
        have h1 := hC how q _ r2.inv n2
        have h2 := hk how q _ r2.inv n2
        have h3 := (hg how q _ r2.inv).micros
        generalize g how q { tracked p q s with w := w } = x at h1 h2 h3
        obtain ⟨s', r⟩ := x
        cases r with
        | val r =>
          obtain ⟨h4, h5⟩ := ih r (r2.micros h3) (h2 r rfl)
          refine ⟨h4, fun hd => ?_⟩
          rcases hd with hd | hd
          · exact absurd rfl (h1 hd r)
          · exact h5 (hd r)
        | _ => exact ⟨fun r h => (by cases h), fun _ r h => by cases h⟩
  | myState f k ih =>
    obtain ⟨d, hd, hst, e⟩ := hr.myState_eq f
    rw [runProgH_myState, e]
    split
    · next ht =>
      have hm : Micro Y s (wrote p (f d) s) := .setDyn p (f d) hr.known hr.dyn ht
      obtain ⟨h4, h5⟩ := ih d (hr.micro hm) (hn.micro hr.inv hm rfl)
      exact ⟨h4, fun hd => h5 (hd d)⟩
    · exact ⟨fun r h => (by cases h), fun _ r h => by cases h⟩
  | world f k ih =>
    have m : Micro Y s { s with w := f s.w } := .world _
    obtain ⟨h4, h5⟩ := ih s.w (hr.micro m) (hn.micro hr.inv m rfl)
    exact ⟨h4, fun hd => h5 (hd _)⟩
  | alloc q k ih =>
    rw [runProgH]
    cases ha : allocB q s with
    | none => exact ⟨fun r h => (by cases h), fun _ r h => by cases h⟩
    | some s' =>
      have m : Micro Y s s' := .alloc q ha
      obtain ⟨h4, h5⟩ := ih (hr.micro m) (hn.micro hr.inv m (by rw [allocB_c ha]))
      exact ⟨h4, fun hd => h5 hd⟩
  | free a k ih =>
    have m : Micro Y s (freeB a s) := .free a
    obtain ⟨h4, h5⟩ := ih (hr.micro m) (hn.micro hr.inv m rfl)
    exact ⟨h4, fun hd => h5 hd⟩

theorem getByH_none {C : Promise σ → Prop} (D : Hooks σ) {bld : BuildFn σ} (hb : BuildOk Y bld)
    (h : ∀ p s, Inv Y s → NoneCached C s → s.live p = true → s.c.artifacts[p.id]? = none →
      KeepsNone C (bld p s) ∧ (C p → ∀ r, (bld p s).2 ≠ .val r))
    (how : Access) (p : Promise σ) (hi : Inv Y s) (hn : NoneCached C s) :
    KeepsNone C (getByH Y D bld how p s) ∧ (C p → ∀ r, (getByH Y D bld how p s).2 ≠ .val r) := by
  have hplain : KeepsNone C (getBy Y bld how p s) ∧ (C p → ∀ r, (getBy Y bld how p s).2 ≠ .val r) := by
    cases hl : s.live p with
    | false => rw [(getBy_ok hb).dead how p s hl]; exact ⟨fun _ _ => hn, fun _ r h => by cases h⟩
    | true =>
      cases ha : s.c.artifacts[p.id]? with
      | some v =>
        rw [getBy_hit hi bld how hl ha]
        refine ⟨fun _ _ => hn, fun hp => ?_⟩
        have := hn p hp hl
        rw [Uncached, ha] at this
        cases this
      | none =>
        rw [getBy_miss hi hb how hl ha]
        obtain ⟨h1, h2⟩ := h p s hi hn hl ha
        generalize bld p s = x at h1 h2
        obtain ⟨s2, r⟩ := x
        rcases r with (e | v) | _ | _ | _
        · exact ⟨fun _ _ => h1 _ rfl, fun hp => absurd rfl (h2 hp _)⟩
        · exact ⟨fun _ _ => h1 _ rfl, fun hp => absurd rfl (h2 hp _)⟩
        all_goals exact ⟨fun r h => (by cases h), fun _ r h => by cases h⟩
  obtain ⟨w, h1, h2 | ⟨_, h2, _⟩, _⟩ := getByH_getBy (Y := Y) D bld how p s
  · refine ⟨fun r hr => ?_, fun hp r => by rw [h2]; exact hplain.2 hp r⟩
    rw [h2] at hr
    rw [h1]
    exact hplain.1 r hr
  · exact ⟨fun r hr => (by rw [h2] at hr; cases hr), fun _ r hr => by rw [h2] at hr; cases hr⟩

theorem getAH_none {C : Promise σ → Prop} (hC : ∀ p, C p → (Y.code p.b).demands C) (D : Hooks σ) (n : Nat)
    (how : Access) (p : Promise σ) (hi : Inv Y s) (hn : NoneCached C s) :
    KeepsNone C (getAH Y D n how p s) ∧ (C p → ∀ r, (getAH Y D n how p s).2 ≠ .val r) := by
  induction n generalizing s how p with
  | zero =>
    exact getByH_none D (getAH_ok Y D 0).2 (fun p s _ _ _ _ => ⟨fun r h => (by cases h), fun _ r h => by cases h⟩) how p hi hn
  | succ n ih =>
    refine getByH_none D (getAH_ok Y D (n + 1)).2 (fun p s hi hn hl ha => ?_) how p hi hn
    simp only [buildNH]
    rcases buildH_cases D (getAH Y D n) hi hl ha with ⟨s1, e1, e⟩ | ⟨s1, e1, e⟩ | ⟨s1, d, e1, e2⟩
    · rw [e]; exact ⟨fun r h => (by cases h), fun _ r h => by cases h⟩
    · rw [e]; exact ⟨fun r h => (by cases h), fun _ r h => by cases h⟩
    · rw [e2]
      obtain ⟨w, e | e⟩ := callHook_cases D (.handle p) s1 fun s =>
        finishH D p (runProgH Y D (getAH Y D n) p (Y.code p.b) (entered p s))
      · rw [e]; exact ⟨fun r h => (by cases h), fun _ r h => by cases h⟩
      · rw [e]
        have heh := ensureDyn_heap (Y := Y) p s
        rw [e1] at heh
        obtain ⟨r1, m1, a1, d1⟩ := ensureDyn_running hi hl ha e1
        have n1 : NoneCached C (entered p { s1 with w := w }) := hn.same heh a1
        replace r1 : Running Y p (entered p { s1 with w := w }) := r1.micro (.world w)
        have hgr := (getAH_ok Y D n).1
        obtain ⟨h1, h2⟩ := runProgH_none (D := D) hgr
          (fun how q s hi hn hq => (ih how q hi hn).2 hq) (fun how q s hi hn => (ih how q hi hn).1)
          (Y.code p.b) r1 n1
        have r2 := r1.micros (runProgH_ran D hgr (Y.code p.b) r1.inv r1.known r1.dyn r1.pend).1.micros
        have hnot : C p → ∀ r, (runProgH Y D (getAH Y D n) p (Y.code p.b) (entered p { s1 with w := w })).2 ≠ .val r :=
          fun hp => h2 (hC p hp)
        generalize runProgH Y D (getAH Y D n) p (Y.code p.b) (entered p { s1 with w := w }) = x at h1 hnot r2
        obtain ⟨s2, r⟩ := x
        rcases r with (e | v) | _ | _ | _
        · exact ⟨h1, fun hp => absurd rfl (hnot hp _)⟩
        · refine ⟨fun r hr => ?_, fun hp => absurd rfl (hnot hp _)⟩
          simp only [finishH] at hr ⊢
          obtain ⟨w2, e | e⟩ := callHook_cases D (.report (.built p v)) s2 (storeH D p v)
          · rw [e] at hr; cases hr
          · rw [e]
            obtain ⟨w3, _, e3, _⟩ := storeH_finish D p v { s2 with w := w2 }
            rw [e3]
            have h3 : NoneCached C s2 := h1 _ rfl
            intro q hq hql
            by_cases hqp : q.id = p.id
            · have h4 := r2.inv.heapKnown _ _ _ r2.known (hqp ▸ live_iff.1 hql)
              have : q = p := by cases q; cases p; cases hqp; cases h4; rfl
              subst this
              exact absurd rfl (hnot hq _)
            · unfold Uncached
              rw [finish_artifacts hqp]
              exact h3 q hq hql
        all_goals exact ⟨fun r h => (by cases h), fun _ r h => by cases h⟩

end Daab
