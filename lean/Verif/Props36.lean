import Verif.Props34
import Verif.Props29

/-!
# C73: in one `get` every builder is called at most once

It is false if builders fail, as errors are not cached; then there is even no bound but an exponential one.  For those builders that
can not fail it holds, if the builders form no cycle; and it holds for all builders that after a builder succeeded it is not called
again.
-/

open Std

namespace Daab

section
variable {σ : Sig} {Y : Sys σ} {s s' : St σ}

/-! ## What a run calls -/

/-- The result is a value (which may be an error, but neither a panic nor an overflow). -/
def Res.isVal {α : Type} : Res α → Prop
  | .val _ => True
  | _ => False

/-- From `s` to `s'` no builder in `I` was called after it had been called, all callees have a rank below `R`, and if `ok`, then the
called ones in `I` are cached. -/
structure Once (I : σ.B → Prop) (rk : σ.B → Nat) (R : Nat) (s s' : St σ) (ok : Prop) : Prop where
  calls : ∃ new, s'.c.log = new ++ s.c.log ∧
    new.Pairwise (fun e e' => ∀ q r : Promise σ, e = .call q → e' = .call r → I r.b → q.id ≠ r.id) ∧
    (∀ q : Promise σ, .call q ∈ new → s'.c.known[q.id]? = some q.b ∧ rk q.b < R) ∧
    (ok → ∀ q : Promise σ, .call q ∈ new → I q.b → q.id ∈ s'.c.artifacts)

variable {I : σ.B → Prop} {rk : σ.B → Nat} {R : Nat}

theorem Once.refl (s : St σ) (ok : Prop) : Once I rk R s s ok := ⟨[], rfl, .nil, by simp, by simp⟩

theorem Once.imp {ok ok' : Prop} (h : Once I rk R s s' ok) (hi : ok' → ok) : Once I rk R s s' ok' := by
  obtain ⟨new, h1, h2, h3, h4⟩ := h
  exact ⟨new, h1, h2, h3, fun hk => h4 (hi hk)⟩

theorem Once.weaken {ok : Prop} {R' : Nat} (h : Once I rk R s s' ok) (hR : R ≤ R') : Once I rk R' s s' ok := by
  obtain ⟨new, h1, h2, h3, h4⟩ := h
  exact ⟨new, h1, h2, fun q hq => ⟨(h3 q hq).1, Nat.lt_of_lt_of_le (h3 q hq).2 hR⟩, h4⟩

/-- Nothing is called. -/
theorem Once.quiet {ok : Prop} {new : List (Event σ)} (h : s'.c.log = new ++ s.c.log) (hn : ∀ q : Promise σ, .call q ∉ new) :
    Once I rk R s s' ok := by
  refine ⟨new, h, ?_, fun q hq => absurd hq (hn q), fun _ q hq => absurd hq (hn q)⟩
  refine List.pairwise_of_forall_mem_list ?_
  rintro e he e' he' q r rfl
  exact absurd he (hn q)

theorem Once.of_log {ok : Prop} (h : s'.c.log = s.c.log) : Once I rk R s s' ok := .quiet (new := []) h (by simp)

/-- Only the outside world differs. -/
theorem Once.world {ok : Prop} (h : Once I rk R s s' ok) (w : σ.W) : Once I rk R s { s' with w := w } ok := ⟨h.calls⟩

theorem Once.trans {ok ok' : Prop} {s1 s2 : St σ} (h : Once I rk R s s1 ok) (hok : ok) (hm : Micros Y s1 s2)
    (h' : Once I rk R s1 s2 ok') : Once I rk R s s2 ok' := by
  obtain ⟨n1, e1, p1, k1, a1⟩ := h
  obtain ⟨n2, e2, p2, k2, a2⟩ := h'
  have hart : ∀ a, a ∈ s1.c.artifacts → a ∈ s2.c.artifacts := by
    obtain ⟨_, _, _, _, _, _, h6⟩ := micros_origin hm
    exact h6
  refine ⟨n2 ++ n1, by rw [e2, e1, List.append_assoc], ?_, fun q hq => ?_, fun hk q hq hI => ?_⟩
  · rw [List.pairwise_append]
    refine ⟨p2, p1, ?_⟩
    rintro e he e' he' q r rfl rfl hI heq
    have h1 : Uncached s1 q.id := micros_call_uncached hm ⟨n2, e2, he⟩
    obtain ⟨v, hv⟩ := (mem_getElem _ _).1 (a1 hok r he' hI)
    rw [heq] at h1
    unfold Uncached at h1
    rw [h1] at hv
    cases hv
  · rcases List.mem_append.1 hq with hq | hq
    · exact k2 q hq
    · exact ⟨hm.known_mono _ _ (k1 q hq).1, (k1 q hq).2⟩
  · rcases List.mem_append.1 hq with hq | hq
    · exact a2 hk q hq hI
    · exact hart _ (a1 hok q hq hI)

/-- First nothing is called. -/
theorem Once.after {ok : Prop} {s1 s2 : St σ} {pre : List (Event σ)} (h : s1.c.log = pre ++ s.c.log)
    (hn : ∀ q : Promise σ, .call q ∉ pre) (hm : Micros Y s1 s2) (h' : Once I rk R s1 s2 ok) : Once I rk R s s2 ok :=
  .trans (Y := Y) (ok := True) (.quiet h hn) trivial hm h'

/-! ## Infallible builders -/

theorem callHook_not_error {D : Hooks σ} {h : Hook σ} {s : St σ} {k : St σ → St σ × Res (Except σ.E σ.V)} {e : σ.E}
    (hk : ∀ s, (k s).2 ≠ .val (.error e)) : (callHook D h s k).2 ≠ .val (.error e) := by
  unfold callHook
  split
  · simp
  · exact hk _

theorem runProgH_not_error (D : Hooks σ) {g : Getter σ} {e : σ.E}
    (hg : ∀ how q s, I q.b → ∀ e, (g how q s).2 ≠ .val (.error e)) (p : Promise σ) (prog : Prog σ) (hp : prog.infallible I) (s : St σ) :
    (runProgH Y D g p prog s).2 ≠ .val (.error e) := by
  induction prog generalizing s with
  | ret r =>
    obtain ⟨v, rfl⟩ := hp
    rw [runProgH]
    split <;> simp
  | panic => rw [runProgH]; simp
  | resolve how q k ih =>
    rw [runProgH]
    split
    · split
      · simp
      · refine callHook_not_error fun s => ?_
        have h1 := hg how q s
        generalize g how q s = x at h1 ⊢
        obtain ⟨s1, r⟩ := x
        rcases r with (e' | v) | _ | _ | _
        · refine ih _ (hp.2 e' fun hI => h1 hI e' rfl) s1
        · exact ih _ (hp.1 v) s1
        all_goals simp
    · simp
  | myState f k ih =>
    rw [runProgH_myState]
    generalize myState Y p f s = x
    obtain ⟨s1, r⟩ := x
    cases r with
    | val d => exact ih d (hp d) s1
    | _ => simp [andThen]
  | world f k ih => exact ih s.w (hp _) _
  | alloc q k ih =>
    rw [runProgH]
    cases allocB q s with
    | none => simp
    | some s1 => exact ih hp s1
  | free a k ih => exact ih hp _

/-- A getter answers with an error only if the build does. -/
theorem getByH_error {D : Hooks σ} {bld : BuildFn σ} {how : Access} {p : Promise σ} {s : St σ} {e : σ.E}
    (hb : (bld p s).2 ≠ .val (.error e)) : (getByH Y D bld how p s).2 ≠ .val (.error e) := by
  have hf : (fresh Y p (bld p s)).2 ≠ .val (.error e) := by
    generalize bld p s = x at hb
    obtain ⟨s1, r⟩ := x
    rcases r with (e' | v) | _ | _ | _
    · simpa [fresh] using hb
    · simp only [fresh]; split <;> simp
    all_goals simp [fresh]
  have hr : (getRef Y bld p s).2 ≠ .val (.error e) := by
    unfold getRef
    repeat' split
    all_goals first
      | exact hf
      | simp
  unfold getByH
  split
  · split
    · unfold getBin
      split
      all_goals first
        | exact hf
        | simp
    · exact hr
    · unfold getClonedH
      split
      · exact callHook_not_error fun s => by simp
      · exact hr
  · simp

theorem getAH_not_error (hI : ∀ b, I b → (Y.code b).infallible I) (D : Hooks σ) (n : Nat) (how : Access) (p : Promise σ) (s : St σ)
    (hp : I p.b) (e : σ.E) : (getAH Y D n how p s).2 ≠ .val (.error e) := by
  induction n generalizing how p s e with
  | zero => exact getByH_error (by simp)
  | succ n ih =>
    refine getByH_error ?_
    unfold buildH
    split
    · simp
    · simp only
      split
      · simp
      · simp
      · simp
      · refine callHook_not_error fun s => ?_
        have h1 := runProgH_not_error (Y := Y) D (g := getAH Y D n) (I := I) (e := e) (fun how q s hq e => ih how q s hq e) p _ (hI _ hp)
          (s.onCache (·.emit (.call p)))
        split
        · refine callHook_not_error fun s => ?_
          unfold storeH
          simp only
          split
          · simp
          · exact callHook_not_error fun s => by simp
        · next heq => rw [heq] at h1; exact h1
        all_goals simp

/-! ## A getter calls each of them once -/

/-- A getter leaves the state as it was, or as the build left it, but for what a `Clone` implementation does; and it gives a value only
if the build did. -/
theorem getByH_val (D : Hooks σ) (bld : BuildFn σ) (how : Access) (p : Promise σ) (s : St σ) :
    ∃ w, (getByH Y D bld how p s).1 = { s with w := w } ∨ ((getByH Y D bld how p s).1 = { (bld p s).1 with w := w } ∧
      ((getByH Y D bld how p s).2.isVal → (bld p s).2.isVal)) := by
  have hfv : (fresh Y p (bld p s)).2.isVal → (bld p s).2.isVal := by
    generalize bld p s = x
    obtain ⟨s1, r⟩ := x
    rcases r with (_ | v) | _ | _ | _
    · exact id
    · exact fun _ => trivial
    all_goals exact id
  have href : (getRef Y bld p s).1 = s ∨ ((getRef Y bld p s).1 = (bld p s).1 ∧ ((getRef Y bld p s).2.isVal → (bld p s).2.isVal)) := by
    unfold getRef
    repeat' split
    all_goals first
      | exact .inl rfl
      | exact .inr ⟨fresh_fst .., hfv⟩
  unfold getByH
  split
  · split
    · unfold getBin
      repeat' split
      all_goals first
        | exact ⟨s.w, .inl rfl⟩
        | exact ⟨_, .inr ⟨fresh_fst .., hfv⟩⟩
    · rcases href with e | ⟨e, hv⟩
      · rw [e]; exact ⟨s.w, .inl rfl⟩
      · exact ⟨_, .inr ⟨e, hv⟩⟩
    · unfold getClonedH
      generalize getRef Y bld p s = x at href
      obtain ⟨s1, r⟩ := x
      simp only at href
      split
      · next s2 v he =>
        cases he
        obtain ⟨w, e | e⟩ := callHook_cases D (.clone v) s1 (fun s => (s, .val (.ok (Y.clone v))) : St σ → St σ × Res (Except σ.E σ.V))
        all_goals
          rw [e]
          rcases href with rfl | ⟨rfl, hv⟩
          · exact ⟨w, .inl rfl⟩
          · exact ⟨w, .inr ⟨rfl, fun _ => hv trivial⟩⟩
      · rcases href with e | ⟨e, hv⟩
        · exact ⟨s.w, .inl e⟩
        · exact ⟨_, .inr ⟨e, hv⟩⟩
  · exact ⟨s.w, .inl rfl⟩

theorem runProgH_once (D : Hooks σ) {g : Getter σ} (hg : GetRan Y g)
    (honce : ∀ how q s, Inv Y s → rk q.b < R → Once I rk R s (g how q s).1 (g how q s).2.isVal) {p : Promise σ} (prog : Prog σ)
    (hP : prog.only fun q => rk q.b < R) (hr : Running Y p s) :
    Once I rk R s (runProgH Y D g p prog s).1 (runProgH Y D g p prog s).2.isVal := by
  have mic : ∀ {s : St σ} (prog : Prog σ), Running Y p s → Micros Y s (runProgH Y D g p prog s).1 := fun prog hr =>
    (runProgH_ran D hg prog hr.inv hr.known hr.dyn hr.pend).1.micros
  induction prog generalizing s with
  | ret r => cases r <;> exact .refl s _
  | panic => exact .refl s _
  | resolve how q k ih =>
    cases hl : s.live q with
    | false => rw [runProgH_resolve_dead hl]; exact .refl s _
    | true =>
      rw [runProgH_resolve hr hl]
      have r2 := hr.micros (hr.tracked hl)
      have l1 : (tracked p q s).c.log = [.resolve p q] ++ s.c.log := by
        simp only [tracked, St.onCache, addEdge, Cache.emit, makeKnown_log]; rfl
      have hno : ∀ q' : Promise σ, (.call q' : Event σ) ∉ [.resolve p q] := by simp
      obtain ⟨w, e | e⟩ := callHook_cases D (.report (.resolve p q)) (tracked p q s)
        (fun s => andThen (g how q s) fun r s => runProgH Y D g p (k r) s)
      · rw [e]; exact .quiet (new := [.resolve p q]) l1 hno
      · rw [e]
        replace r2 : Running Y p { tracked p q s with w := w } := r2.micro (.world w)
        replace l1 : ({ tracked p q s with w := w } : St σ).c.log = [.resolve p q] ++ s.c.log := l1
        have h1 := honce how q _ r2.inv hP.1
        have h2 := (hg how q _ r2.inv).micros
        generalize ({ tracked p q s with w := w } : St σ) = s0 at *
        generalize g how q s0 = x at h1 h2
        obtain ⟨s', r⟩ := x
        cases r with
        | val r =>
          have r3 := r2.micros h2
          exact .after l1 hno (h2.trans (mic (k r) r3)) (h1.trans trivial (mic (k r) r3) (ih r (hP.2 r) r3))
        | _ => exact .after l1 hno h2 h1
  | myState f k ih =>
    obtain ⟨d, hd, hst, e⟩ := hr.myState_eq f
    rw [runProgH_myState, e]
    split
    · next ht =>
      have r2 := hr.micro (.setDyn p (f d) hr.known hr.dyn ht)
      exact .after (s1 := wrote p (f d) s) (pre := [.setDyn p (f d)]) rfl (by simp) (mic (k d) r2) (ih d (hP d) r2)
    · exact .refl s _
  | world f k ih =>
    exact .after (s1 := { s with w := f s.w }) (pre := []) rfl (by simp) (mic _ (hr.micro (.world (f s.w))))
      (ih s.w (hP _) (hr.micro (.world (f s.w))))
  | alloc q k ih =>
    rw [runProgH]
    cases ha : allocB q s with
    | none => exact .refl s _
    | some s' =>
      have r2 := hr.micro (.alloc q ha)
      exact .after (pre := []) (by rw [allocB_c ha]; rfl) (by simp) (mic k r2) (ih hP r2)
  | free a k ih =>
    have r2 := hr.micro (.free a)
    exact .after (s1 := freeB a s) (pre := []) rfl (by simp) (mic k r2) (ih hP r2)

theorem getAH_once (hrk : Ranked Y rk) (hI : ∀ b, I b → (Y.code b).infallible I) (D : Hooks σ) (n : Nat) (how : Access) (p : Promise σ)
    (hi : Inv Y s) : Once I rk (rk p.b + 1) s (getAH Y D n how p s).1 (getAH Y D n how p s).2.isVal := by
  induction n generalizing s how p with
  | zero =>
    obtain ⟨w, e | e⟩ := getByH_fst (Y := Y) D (fun _ s => (s, .overflow)) how p s
    all_goals
      simp only [getAH]
      rw [e]
      exact .of_log rfl
  | succ n ih =>
    simp only [getAH]
    by_cases hb : s.live p = true ∧ s.c.artifacts[p.id]? = none
    · obtain ⟨hl, ha⟩ := hb
      suffices h : Once I rk (rk p.b + 1) s (buildH Y D (getAH Y D n) p s).1 (buildH Y D (getAH Y D n) p s).2.isVal by
        obtain ⟨w, e | ⟨e, hv⟩⟩ := getByH_val (Y := Y) D (buildH Y D (getAH Y D n)) how p s
        · rw [e]; exact .of_log rfl
        · rw [e]; exact (h.imp hv).world w
      -- what `ensureDyn` logs
      have hed : ∃ pre, (ensureDyn Y p s).1.c.log = pre ++ s.c.log ∧ ∀ q : Promise σ, .call q ∉ pre := by
        unfold ensureDyn
        simp only [St.onCache]
        repeat' split
        all_goals first
          | exact ⟨[], makeKnown_log p s.c, by simp⟩
          | exact ⟨[.initDyn p _], by simp only [Cache.emit, makeKnown_log]; rfl, by simp⟩
      rcases buildH_cases D (getAH Y D n) hi hl ha with ⟨s1, e1, e⟩ | ⟨s1, e1, e⟩ | ⟨s1, d, e1, e2⟩
      · rw [e]; rw [e1] at hed; obtain ⟨pre, h1, h2⟩ := hed; exact .quiet h1 h2
      · rw [e]; rw [e1] at hed; obtain ⟨pre, h1, h2⟩ := hed; exact .quiet h1 h2
      · rw [e2]
        rw [e1] at hed
        obtain ⟨pre, hp1, hp2⟩ := hed
        obtain ⟨r1, m1, a1, d1⟩ := ensureDyn_running hi hl ha e1
        obtain ⟨w, e | e⟩ := callHook_cases D (.handle p) s1 fun s =>
          finishH D p (runProgH Y D (getAH Y D n) p (Y.code p.b) (entered p s))
        · rw [e]; exact .quiet (new := pre) hp1 hp2
        · rw [e]
          replace r1 : Running Y p (entered p { s1 with w := w }) := r1.micro (.world w)
          have l1 : (entered p { s1 with w := w }).c.log = .call p :: (pre ++ s.c.log) := by
            rw [← hp1]; rfl
          have hgr := (getAH_ok Y D n).1
          have l2 := runProgH_once D hgr (R := rk p.b) (I := I)
            (fun how q s hi hq => (ih how q hi).weaken hq) (Y.code p.b) (hrk p.b) r1
          have hm := (runProgH_ran D hgr (Y.code p.b) r1.inv r1.known r1.dyn r1.pend).1.micros
          have hne : I p.b → ∀ e, (runProgH Y D (getAH Y D n) p (Y.code p.b) (entered p { s1 with w := w })).2 ≠ .val (.error e) :=
            fun hp e => runProgH_not_error D (fun how q s hq e => getAH_not_error hI D n how q s hq e) p _ (hI _ hp) _
          have i3 := r1.micros hm
          generalize runProgH Y D (getAH Y D n) p (Y.code p.b) (entered p { s1 with w := w }) = x at l2 hm hne i3
          obtain ⟨s2, r⟩ := x
          obtain ⟨new, e2, pw, kn, ar⟩ := l2
          simp only at e2 pw kn ar hne i3
          have hlog : s2.c.log = (new ++ .call p :: pre) ++ s.c.log := by
            rw [e2, l1]; simp
          have hpw : (new ++ .call p :: pre).Pairwise
              (fun e e' => ∀ q r : Promise σ, e = .call q → e' = .call r → I r.b → q.id ≠ r.id) := by
            rw [List.pairwise_append]
            refine ⟨pw, ?_, ?_⟩
            · rw [List.pairwise_cons]
              refine ⟨?_, ?_⟩
              · rintro e he q r _ rfl
                exact absurd he (hp2 r)
              · refine List.pairwise_of_forall_mem_list ?_
                rintro e he e' he' q r rfl
                exact absurd he (hp2 q)
            · rintro e he e' he' q r rfl rfl _ heq
              rcases List.mem_cons.1 he' with h | h
              · cases h
                obtain ⟨k1, k2⟩ := kn q he
                rw [heq, i3.known] at k1
                have hb : p.b = q.b := Option.some.inj k1
                rw [hb] at k2
                exact absurd k2 (Nat.lt_irrefl _)
              · exact absurd h (hp2 r)
          have hkn : ∀ q : Promise σ, .call q ∈ new ++ .call p :: pre → s2.c.known[q.id]? = some q.b ∧ rk q.b < rk p.b + 1 := by
            intro q hq
            rcases List.mem_append.1 hq with hq | hq
            · exact ⟨(kn q hq).1, Nat.lt_succ_of_lt (kn q hq).2⟩
            · rcases List.mem_cons.1 hq with h | h
              · cases h; exact ⟨i3.known, Nat.lt_succ_self _⟩
              · exact absurd h (hp2 q)
          rcases r with (er | v) | _ | _ | _
          · refine ⟨_, hlog, hpw, hkn, fun _ q hq hIq => ?_⟩
            rcases List.mem_append.1 hq with hq | hq
            · exact ar trivial q hq hIq
            · rcases List.mem_cons.1 hq with h | h
              · cases h; exact absurd rfl (hne hIq er)
              · exact absurd h (hp2 q)
          · simp only [finishH]
            obtain ⟨w2, e | e⟩ := callHook_cases D (.report (.built p v)) s2 (storeH D p v)
            · rw [e]; exact ⟨_, hlog, hpw, hkn, fun h => h.elim⟩
            · rw [e]
              obtain ⟨w3, _, e3, _⟩ := storeH_finish D p v { s2 with w := w2 }
              rw [e3]
              refine ⟨.built p v :: (new ++ .call p :: pre), ?_, ?_, ?_, fun _ q hq hIq => ?_⟩
              · simp only [finish, St.onCache, Cache.emit, hlog]; simp
              · rw [List.pairwise_cons]
                refine ⟨?_, hpw⟩
                rintro e' _ q r h
                cases h
              · intro q hq
                rcases List.mem_cons.1 hq with h | h
                · cases h
                · exact hkn q h
              · rcases List.mem_cons.1 hq with h | hq
                · cases h
                · have hins : ∀ a, a = p.id ∨ a ∈ s2.c.artifacts → a ∈ (finish p ({ s2 with w := w3 }, .val (.ok v))).1.c.artifacts := by
                    intro a ha
                    simp only [finish, St.onCache, Cache.emit]
                    rcases ha with rfl | ha
                    · simp
                    · grind
                  refine hins _ ?_
                  rcases List.mem_append.1 hq with hq | hq
                  · exact .inr (ar trivial q hq hIq)
                  · rcases List.mem_cons.1 hq with h | h
                    · cases h; exact .inl rfl
                    · exact absurd h (hp2 q)
          all_goals exact ⟨_, hlog, hpw, hkn, fun h => h.elim⟩
    · have hs : ∃ w, (getByH Y D (buildH Y D (getAH Y D n)) how p s).1 = { s with w := w } := by
        cases hl : s.live p with
        | false => simp only [getByH, hl]; exact ⟨s.w, rfl⟩
        | true =>
          cases ha : s.c.artifacts[p.id]? with
          | none => exact absurd ⟨hl, ha⟩ hb
          | some v =>
            have h1 := getBy_hit hi (buildH Y D (getAH Y D n)) how hl ha
            cases how with
            | cloned =>
              have h2 := getBy_hit hi (buildH Y D (getAH Y D n)) .ref hl ha
              simp only [getBy, hl, if_true] at h2
              simp only [getByH, hl, if_true, getClonedH, h2, seen]
              obtain ⟨w, e | e⟩ := callHook_cases D (.clone v) s
                (fun s => (s, .val (.ok (Y.clone v))) : St σ → St σ × Res (Except σ.E σ.V))
              · rw [e]; exact ⟨w, rfl⟩
              · rw [e]; exact ⟨w, rfl⟩
            | _ =>
              simp only [getBy, hl, if_true] at h1
              simp only [getByH, hl, if_true, h1]
              exact ⟨s.w, rfl⟩
      obtain ⟨w, e⟩ := hs
      rw [e]; exact .of_log rfl

/-! ## The theorems -/

/-- **C73** In a `get`, after a builder succeeded it is not called again, whatever the builders, the doctor, `Debug` and `Clone` do. -/
theorem C73_not_after_success_partial (h : Reachable Y s) {p : Promise σ} {how : Access} {res : Res (Ans σ)}
    (hw : Went Y s (.get how p) s' res) (hg : res.goesOn) {new post mid pre : List (Event σ)} {q r : Promise σ} {v : σ.V}
    (hnew : s'.c.log = new ++ s.c.log) (hl : new = post ++ .call q :: (mid ++ .built r v :: pre)) : q.id ≠ r.id := by
  intro heq
  have hm := ((C65_reachable h).safe.reads (op := .get how p) trivial hw).micros
  obtain ⟨new', e, h2⟩ := hm.no_drop
  rw [hnew] at e
  have := List.append_cancel_right e
  subst this
  subst hl
  obtain ⟨e, he, hd⟩ := C27_call_needs_invalidation (h.went hw hg) (p := r) (q := q) (v := v) (post := post) (mid := mid)
    (pre := pre ++ s.c.log) heq (by rw [hnew]; simp)
  exact h2 e (by simp [he]) hd

/-- **C73** If the builders form a directed acyclic graph, then in a `get` no builder that can not fail is called twice, on however many
paths it is resolved; `I` are these builders, a builder that forwards only errors of builders in `I` being one, too. -/
theorem C73_called_once_partial (hrk : Ranked Y rk) (hI : ∀ b, I b → (Y.code b).infallible I) (h : Reachable Y s) {p : Promise σ}
    {how : Access} {res : Res (Ans σ)} (hw : Went Y s (.get how p) s' res) {new post mid pre : List (Event σ)} {q r : Promise σ}
    (hnew : s'.c.log = new ++ s.c.log) (hl : new = post ++ .call q :: (mid ++ .call r :: pre)) (hr : I r.b) : q.id ≠ r.id := by
  obtain ⟨D, n, ord, rfl, _⟩ := went_plain hw
  have ho : ∃ R ok, Once I rk R s (stepH Y D n ord s (.get how p)).1 ok := by
    rcases stepH_cases (Y := Y) (s := s) D n ord (.get how p) with ⟨_, e⟩ | e
    · rw [e]; exact ⟨_, _, getAH_once hrk hI D n how p h.inv⟩
    · rw [e]; exact ⟨0, True, .refl s _⟩
  obtain ⟨R, ok, new', e, hp, _⟩ := ho
  rw [hnew] at e
  have := List.append_cancel_right e
  subst this
  subst hl
  rw [List.pairwise_append, List.pairwise_cons] at hp
  exact hp.2.1.1 (.call r) (by simp) q r rfl rfl hr

/-- From `s` the program gets to `s'` by operations that read or build, none of which panics, and whatever happens outside of the
cache; with any doctor, `Debug` and `Clone`. -/
inductive Returning (Y : Sys σ) (s : St σ) : St σ → Prop
  | refl : Returning Y s s
  | step {s1 s2 : St σ} {op : Op σ} {a : Ans σ} : Returning Y s s1 → op.reads → Went Y s1 op s2 (.val a) → Returning Y s s2

theorem Returning.reading (h : Returning Y s s') : Reading Y s s' := by
  induction h with
  | refl => exact .refl
  | step _ ho hw ih => exact .step ih ho hw trivial

theorem Returning.once (hrk : Ranked Y rk) (hI : ∀ b, I b → (Y.code b).infallible I) (h : Reachable Y s) (hr : Returning Y s s') :
    ∃ R, Once I rk R s s' True := by
  induction hr with
  | refl => exact ⟨0, .refl s _⟩
  | @step s1 s2 op a hr ho hw ih =>
    obtain ⟨R, ih⟩ := ih
    have h1 := hr.reading.reachable h
    rcases Op.reads_cases ho with ho | ho
    · have hm := ((C65_reachable h1).safe.reads ho hw).micros
      suffices hs : ∃ R, Once I rk R s1 s2 True by
        obtain ⟨R', h2⟩ := hs
        exact ⟨max R R', (ih.weaken (Nat.le_max_left ..)).trans trivial hm (h2.weaken (Nat.le_max_right ..))⟩
      obtain ⟨D, n, ord, rfl, e2⟩ := went_plain hw
      rcases stepH_cases (Y := Y) (s := s1) D n ord op with ⟨_, e⟩ | e
      · rw [e] at e2 ⊢
        by_cases hd : op.deep = false
        · obtain ⟨w, e1, _⟩ := execH_shallow (Y := Y) (s := s1) D n ord op hd
          rw [e1]
          cases op with
          | dynState p =>
            refine ⟨0, ?_⟩
            have hed : ∃ pre, (ensureDyn Y p s1).1.c.log = pre ++ s1.c.log ∧ ∀ q : Promise σ, .call q ∉ pre := by
              unfold ensureDyn
              simp only [St.onCache]
              repeat' split
              all_goals first
                | exact ⟨[], makeKnown_log p s1.c, by simp⟩
                | exact ⟨[.initDyn p _], by simp only [Cache.emit, makeKnown_log]; rfl, by simp⟩
            obtain ⟨pre, e3, e4⟩ := hed
            exact .quiet (new := pre) e3 e4
          | get | getMut | dynStateMut => cases hd
          | lookup | getDynState | isKnown | numKnown => exact ⟨0, .of_log rfl⟩
          | _ => exact ho.elim
        · cases op with
          | get how p =>
            refine ⟨_, (getAH_once hrk hI D n how p h1.inv).imp fun _ => ?_⟩
            simp only [execH] at e2
            generalize (getAH Y D n how p s1).2 = r at e2
            cases r with
            | val r => trivial
            | _ => cases e2
          | getMut | dynStateMut => exact ho.elim
          | _ => exact absurd rfl hd
      · rw [e] at e2; cases e2
    · obtain ⟨hm, hc⟩ := outside_spec ho hw
      exact ⟨R, ih.trans trivial hm (.of_log (by rw [hc]))⟩

/-- **C73** The same for any number of reading and building operations that return: all together they call a builder that can not fail
at most once. -/
theorem C73_called_once_until_change_partial (hrk : Ranked Y rk) (hI : ∀ b, I b → (Y.code b).infallible I) (h : Reachable Y s)
    (hret : Returning Y s s') {new post mid pre : List (Event σ)} {q r : Promise σ}
    (hnew : s'.c.log = new ++ s.c.log) (hl : new = post ++ .call q :: (mid ++ .call r :: pre)) (hr : I r.b) : q.id ≠ r.id := by
  obtain ⟨R, new', e, hp, _⟩ := hret.once hrk hI h
  rw [hnew] at e
  have := List.append_cancel_right e
  subst this
  subst hl
  rw [List.pairwise_append, List.pairwise_cons] at hp
  exact hp.2.1.1 (.call r) (by simp) q r rfl rfl hr

end

/-! ## The refutation -/

namespace Demo36

/-- Builder 0 fails; builder `b + 1` resolves `b`, and once more if it failed, and then fails itself. -/
def retry (dbg : Bool) : Sys Demo.sig where
  code := fun b : Nat => match b with
    | 0 => .ret (.error (0 : Nat))
    | b + 1 => .resolve .bin ⟨b, (b : Nat)⟩ fun r => match r with
      | .ok v => .ret (.ok v)
      | .error _ => .resolve .bin ⟨b, (b : Nat)⟩ fun r => .ret r
  init := fun b w => (w, some b)
  vty := fun _ => (0 : Nat)
  sty := fun _ => (0 : Nat)
  artTy := fun _ => (0 : Nat)
  stTy := fun _ => (0 : Nat)
  clone := id
  debug := dbg

/-- The builder `b`, at the address `b`. -/
abbrev Q (b : Nat) : Promise Demo.sig := ⟨b, (b : Nat)⟩

theorem retry_ranked (dbg : Bool) : Ranked (retry dbg) (fun b : Nat => b) := by
  intro (b : Nat)
  cases b with
  | zero => exact trivial
  | succ b =>
    refine ⟨Nat.lt_succ_self b, fun r => ?_⟩
    rcases r with e | v
    · exact ⟨Nat.lt_succ_self b, fun r => trivial⟩
    · trivial

open Demo29 (Heap alloc_all)

/-- Nothing is cached at these addresses. -/
def Empty (k : Nat) (s : St Demo.sig) : Prop := ∀ a : Nat, a < k → s.c.artifacts[(a : Id)]? = none

theorem retry_enter (dbg : Bool) (p : Promise Demo.sig) (s : St Demo.sig) : ∃ s1 d, ensureDyn (retry dbg) p s = (s1, .val d) ∧
    s1.heap = s.heap ∧ s1.c.artifacts = s.c.artifacts ∧ ∃ pre, s1.c.log = pre ++ s.c.log := by
  have h0 : (makeKnown p s.c).log = s.c.log := makeKnown_log p s.c
  have h1 : (makeKnown p s.c).artifacts = s.c.artifacts := makeKnown_artifacts p s.c
  unfold ensureDyn
  simp only [St.onCache, retry, if_true]
  split
  · exact ⟨_, _, rfl, rfl, h1, [], h0⟩
  · exact ⟨_, _, rfl, rfl, h1, [_], by simp only [Cache.emit, h0]; rfl⟩

/-- What a failing `get` does. -/
theorem retry_get (dbg : Bool) (k : Nat) (b : Nat) (hb : b < k) (n : Nat) (hn : b < n) (how : Access) (s : St Demo.sig)
    (hi : Inv (retry dbg) s) (hh : Heap s (· < k)) (he : Empty k s) :
    (getA (retry dbg) n how (Q b) s).2 = .val (.error (0 : Nat)) ∧ Heap (getA (retry dbg) n how (Q b) s).1 (· < k) ∧
    Empty k (getA (retry dbg) n how (Q b) s).1 ∧
    ∃ new, (getA (retry dbg) n how (Q b) s).1.c.log = new ++ s.c.log ∧ (List.replicate (2 ^ b) (Event.call (Q 0))).Sublist new := by
  induction b generalizing n how s with
  | zero => ?_
  | succ b ih => ?_
  all_goals
    obtain ⟨n, rfl⟩ : ∃ m, n = m + 1 := ⟨n - 1, by omega⟩
  · have hl : s.live (Q 0) = true := (hh.live _).2 ⟨hb, rfl⟩
    have ha : s.c.artifacts[(Q 0).id]? = none := he 0 hb
    rw [getA_miss _ how hi hl ha]
    simp only [buildN]
    obtain ⟨s1, d, e1, h1, h2, pre, h3⟩ := retry_enter dbg (Q 0) s
    rcases build_cases (getA (retry dbg) n) hi hl ha with ⟨s2, e, _⟩ | ⟨s2, e, _⟩ | ⟨s2, d', e, e2⟩
    · rw [e1] at e; cases e
    · rw [e1] at e; cases e
    · rw [e1] at e; cases e
      rw [e2]
      refine ⟨rfl, ?_, ?_, .call (Q 0) :: pre, ?_, ?_⟩
      · intro a b; show s1.heap[a]? = _ ↔ _; rw [h1]; exact hh a b
      · intro a ha; show s1.c.artifacts[a]? = _; rw [h2]; exact he a ha
      · show _ :: s1.c.log = _; rw [h3]; rfl
      · exact .cons_cons _ (List.nil_sublist _)
  · have hl : s.live (Q (b + 1)) = true := (hh.live _).2 ⟨hb, rfl⟩
    have ha : s.c.artifacts[(Q (b + 1)).id]? = none := he _ hb
    rw [getA_miss _ how hi hl ha]
    simp only [buildN]
    obtain ⟨s1, d, e1, h1, h2, pre, h3⟩ := retry_enter dbg (Q (b + 1)) s
    rcases build_cases (getA (retry dbg) n) hi hl ha with ⟨s2, e, _⟩ | ⟨s2, e, _⟩ | ⟨s2, d', e, e2⟩
    · rw [e1] at e; cases e
    · rw [e1] at e; cases e
    · rw [e1] at e; cases e
      rw [e2]
      obtain ⟨r1, m1, a1, d1⟩ := ensureDyn_running hi hl ha e1
      have g1 : ∀ s : St Demo.sig, Running (retry dbg) (Q (b + 1)) s → Heap s (· < k) → Empty k s →
          ∃ s', getA (retry dbg) n .bin (Q b) (tracked (Q (b + 1)) (Q b) s) = (s', .val (.error (0 : Nat))) ∧
            Running (retry dbg) (Q (b + 1)) s' ∧ Heap s' (· < k) ∧ Empty k s' ∧ s.live (Q b) = true ∧
            ∃ new, s'.c.log = new ++ s.c.log ∧ (List.replicate (2 ^ b) (Event.call (Q 0))).Sublist new := by
        intro s hr hh he
        have hlb : s.live (Q b) = true := (hh.live _).2 ⟨by show b < k; omega, rfl⟩
        have r2 := hr.micros (hr.tracked hlb)
        have hh2 : Heap (tracked (Q (b + 1)) (Q b) s) (· < k) := hh
        have he2 : Empty k (tracked (Q (b + 1)) (Q b) s) := by
          intro a ha
          show (makeKnown (Q b) s.c).artifacts[a]? = none
          rw [makeKnown_artifacts]; exact he a ha
        obtain ⟨i1, i2, i3, new, i4, i5⟩ := ih (by omega) n (by omega) .bin _ r2.inv hh2 he2
        have hm := ((getA_ok (retry dbg) n).1.ran .bin (Q b) _ r2.inv).micros
        generalize getA (retry dbg) n .bin (Q b) (tracked (Q (b + 1)) (Q b) s) = x at i1 i2 i3 i4 hm
        obtain ⟨s', r⟩ := x
        simp only at i1
        subst i1
        refine ⟨s', rfl, r2.micros hm, i2, i3, hlb, new ++ [.resolve (Q (b + 1)) (Q b)], ?_, i5.trans (List.sublist_append_left ..)⟩
        show s'.c.log = _
        rw [i4]
        simp [tracked, St.onCache, addEdge, Cache.emit, makeKnown_log]
      have hh1 : Heap (entered (Q (b + 1)) s1) (· < k) := by
        intro a b; show s1.heap[a]? = _ ↔ _; rw [h1]; exact hh a b
      have he1 : Empty k (entered (Q (b + 1)) s1) := by
        intro a ha; show s1.c.artifacts[a]? = _; rw [h2]; exact he a ha
      obtain ⟨s2, e3, r2, hh2, he2, l2, n2, e4, b2⟩ := g1 _ r1 hh1 he1
      obtain ⟨s3, e5, r3, hh3, he3, l3, n3, e6, b3⟩ := g1 _ r2 hh2 he2
      have hrun : runProg (retry dbg) (getA (retry dbg) n) (Q (b + 1)) ((retry dbg).code (Q (b + 1)).b) (entered (Q (b + 1)) s1) =
          (s3, .val (.error (0 : Nat))) := by
        show runProg (retry dbg) (getA (retry dbg) n) (Q (b + 1)) (.resolve .bin (Q b) _) _ = _
        rw [runProg_resolve r1 l2, e3]
        show runProg (retry dbg) (getA (retry dbg) n) (Q (b + 1)) (.resolve .bin (Q b) _) _ = _
        rw [runProg_resolve r2 l3, e5]
        rfl
      rw [hrun]
      refine ⟨rfl, hh3, he3, n3 ++ (n2 ++ (.call (Q (b + 1)) :: pre)), ?_, ?_⟩
      · show s3.c.log = _
        rw [e6, e4]
        show n3 ++ (n2 ++ (_ :: s1.c.log)) = _
        rw [h3]; simp
      · rw [show 2 ^ (b + 1) = 2 ^ b + 2 ^ b by rw [Nat.pow_succ]; omega, List.replicate_add]
        exact b3.append (b2.trans (List.sublist_append_left ..))

end Demo36

/-- **C73 is false** if builders fail, as errors are not cached: for every `k` there is a program of `k + 1` acyclic builders, each
resolving at most one other one, but trying again if that failed, such that a `get` calls one of them `2 ^ k` times, in debug and
release builds. -/
theorem C73_exponential (dbg : Bool) (k : Nat) : ∃ (Y : Sys Demo.sig) (rk : Demo.sig.B → Nat) (s : St Demo.sig) (p q : Promise Demo.sig),
    Y.debug = dbg ∧ Ranked Y rk ∧ Reachable Y s ∧
    (∃ ids : List Id, ids.length = k + 1 ∧ ∀ x : Promise Demo.sig, s.live x = true → x.id ∈ ids) ∧
    ∀ n ord how, k < n → (step Y n ord s (.get how p)).2 = .val (.art (.error (0 : Nat))) ∧
      ∃ new, (step Y n ord s (.get how p)).1.c.log = new ++ s.c.log ∧ (List.replicate (2 ^ k) (Event.call q)).Sublist new := by
  obtain ⟨s, h1, h2, h3, _⟩ := Demo29.alloc_all (Demo36.retry dbg) (k + 1)
  refine ⟨Demo36.retry dbg, fun b : Nat => b, s, Demo36.Q k, Demo36.Q 0, rfl, Demo36.retry_ranked dbg, h1.reachable,
    ⟨List.range (k + 1), by simp, fun x hx => ?_⟩, fun n ord how hn => ?_⟩
  · exact List.mem_range.2 ((h3.live x).1 hx).1
  · have hl : s.live (Demo36.Q k) = true := (h3.live _).2 ⟨Nat.lt_succ_self k, rfl⟩
    obtain ⟨e1, _, _, new, e2, e3⟩ := Demo36.retry_get dbg (k + 1) k (Nat.lt_succ_self k) n hn how s h1.reachable.inv h3
      (fun a _ => by rw [h2]; simp)
    rw [step_live rfl hl]
    simp only [exec]
    exact ⟨by rw [e1]; rfl, new, e2, e3⟩

/-- **C73 is false**, in the words of `C73_called_once_partial`: in a `get` that returns a builder is called twice. -/
theorem C73_called_twice (dbg : Bool) : ∃ (Y : Sys Demo.sig) (rk : Demo.sig.B → Nat) (s s' : St Demo.sig) (p q : Promise Demo.sig)
    (a : Ans Demo.sig) (post mid pre : List (Event Demo.sig)), Y.debug = dbg ∧ Ranked Y rk ∧ Reachable Y s ∧
    Went Y s (.get .bin p) s' (.val a) ∧ s'.c.log = (post ++ .call q :: (mid ++ .call q :: pre)) ++ s.c.log := by
  obtain ⟨Y, rk, s, p, q, hd, hr, h1, _, h2⟩ := C73_exponential dbg 1
  obtain ⟨h3, new, h4, h5⟩ := h2 2 Demo.ord .bin (by omega)
  have h6 : List.Sublist ([Event.call q] ++ [Event.call q]) new := h5
  obtain ⟨l1, l2, rfl, h7, h8⟩ := List.append_sublist_iff.1 h6
  obtain ⟨post, mid, rfl⟩ := List.append_of_mem (List.singleton_sublist.1 h7)
  obtain ⟨mid', pre, rfl⟩ := List.append_of_mem (List.singleton_sublist.1 h8)
  exact ⟨Y, rk, s, _, p, q, _, post, mid ++ mid', pre, hd, hr, h1, by rw [← h3]; exact .plain 2 Demo.ord, by rw [h4]; simp⟩

/-! ## Examples -/

namespace Demo

/-- In a chain of doubled edges no builder fails, ... -/
theorem dagY_infallible : ∀ b, True → (dagY.code b).infallible fun _ => True := by
  rintro (b : Nat) _
  cases b with
  | zero => exact fun d => ⟨_, rfl⟩
  | succ b =>
    refine ⟨fun v => ⟨fun w => ⟨_, rfl⟩, fun e h => absurd trivial h⟩, fun e h => absurd trivial h⟩

/-- ... so that each is called once in a `get`. -/
example : (P 0).id ≠ (P 2).id :=
  C73_called_once_partial (Y := dagY) (I := fun _ => True) (s := (step dagY 3 ord dagS (.invalidate (P 0))).1) (p := P 2) (how := .bin)
    dagY_ranked dagY_infallible (Reachable.step 3 ord (.invalidate (P 0)) dagS_reachable (by decide +kernel)) (.plain 3 ord)
    (q := P 0) (r := P 2) (post := [.built (P 2) 4, .resolve (P 2) (P 1), .built (P 1) 2, .resolve (P 1) (P 0), .built (P 0) 1, .setDyn (P 0) 0])
    (mid := [.resolve (P 1) (P 0), .call (P 1), .resolve (P 2) (P 1)]) (pre := []) rfl rfl trivial

/-- In two `get`s of 2 and 1, too. -/
example : (P 1).id ≠ (P 2).id :=
  C73_called_once_until_change_partial (Y := dagY) (I := fun _ => True) (s := (step dagY 3 ord dagS (.invalidate (P 0))).1)
    (s' := (step dagY 3 ord (step dagY 3 ord (step dagY 3 ord dagS (.invalidate (P 0))).1 (.get .bin (P 2))).1 (.get .bin (P 1))).1)
    dagY_ranked dagY_infallible (Reachable.step 3 ord (.invalidate (P 0)) dagS_reachable (by decide +kernel))
    ((Returning.refl.step (op := .get .bin (P 2)) (a := .art (.ok (4 : Nat))) trivial (.plain 3 ord)).step (op := .get .bin (P 1))
      (a := .art (.ok (2 : Nat))) trivial (.plain 3 ord))
    (q := P 1) (r := P 2) (post := [.built (P 2) 4, .resolve (P 2) (P 1), .built (P 1) 2, .resolve (P 1) (P 0), .built (P 0) 1, .setDyn (P 0) 0,
      .call (P 0), .resolve (P 1) (P 0)])
    (mid := [.resolve (P 2) (P 1)]) (pre := []) rfl rfl trivial

/-- Builder 2 resolves 0 and 1, which succeed. -/
def twoY : Sys sig := { Demo.Y with code := fun b : Nat => match b with
  | 2 => .resolve .bin (P 0) fun _ => .resolve .bin (P 1) fun _ => .ret (.ok (2 : Nat))
  | b => .ret (.ok b) }

/-- The three builders have been created. -/
def twoS : St sig := runOps twoY 3 ord ([0, 1, 2].map (.alloc <| P ·)) (St.new 0)

/-- 1 is called after 0 has succeeded, so it is not 0. -/
example : (P 1).id ≠ (P 0).id :=
  C73_not_after_success_partial (Y := twoY) (s := twoS) (p := P 2) (how := .bin) (r := P 0) (v := (0 : Nat))
    (Reachable.runOps _ (Reachable.new (Y := twoY) (0 : Nat)) (by decide)) (.plain 3 ord) (by decide +kernel) (q := P 1)
    (post := [.built (P 2) 2, .built (P 1) 1]) (mid := [.initDyn (P 1) (some 1), .resolve (P 2) (P 1)])
    (pre := [.call (P 0), .initDyn (P 0) (some 0), .resolve (P 2) (P 0), .call (P 2), .initDyn (P 2) (some 2)]) rfl rfl

end Demo

end Daab
